import Verif.Props.Sorted
import Verif.Props.Compose
import Verif.Props.GuessDamaged
import Verif.Props.Again
import Verif.Props.History
import Verif.Props.Ranges
/-!
# C80: what follows a container does not matter

A container may be followed by something else: padding of a tape, the rest of a disk image, another container.
-/

namespace Verif.Followed
open Format ContainerSpec LayoutSpec Layout RepairSpec UpdateSpec ScanSpec Scan DecodeSpec History Misc

/-- Nothing in `z` is a block of the container with this version and uid, at places counted in whole blocks. -/
def Foreign (v : Version) (uid : Uid) (z : File) : Prop := ∀ k, ¬ ValidAt v uid z k

variable {S : Setting} {ms : List Metadata} {c z : File}

/-- The places of a file of whole blocks that is followed by something. -/
theorem piece_append {v : Version} {c : File} (hal : blockLen v ∣ c.length) (z : File) (k : Nat) :
    (k * blockLen v < c.length → piece v (c ++ z) k = piece v c k) ∧
    (c.length ≤ k * blockLen v → piece v (c ++ z) k = piece v z (k - c.length / blockLen v)) := by
  have hu := blockLen_pos v
  obtain ⟨m, hm⟩ := hal
  constructor
  · intro hk
    unfold piece
    refine File.readAt_append_left ?_
    rw [hm, Nat.mul_comm] at hk ⊢
    have := Nat.lt_of_mul_lt_mul_left hk
    have := Nat.mul_le_mul_right (blockLen v) (show k + 1 ≤ m by omega)
    rw [Nat.succ_mul] at this
    rw [Nat.mul_comm]
    rw [Nat.mul_comm m] at this
    exact this
  · intro hk
    unfold piece
    rw [File.readAt_append_right hk, hm, Nat.mul_div_cancel_left _ hu, Nat.sub_mul, Nat.mul_comm (blockLen v) m]

/-- Blocks of the container are found at the same places. -/
theorem block_append {v : Version} {uid : Uid} {c z : File} (hal : blockLen v ∣ c.length) (hz : Foreign v uid z) (k : Nat) (s : UInt32)
    (p : List Byte) : IsBlock (piece v (c ++ z) k) v uid s p ↔ IsBlock (piece v c k) v uid s p := by
  by_cases hk : k * blockLen v < c.length
  · rw [(piece_append hal z k).1 hk]
  · rw [(piece_append hal z k).2 (by omega), Repair.piece_beyond (f := c) (by omega)]
    constructor
    · intro h; exact absurd ⟨s, p, h⟩ (hz _)
    · intro h; exact absurd h Repair.nil_not_block

theorem hasBlock_append {v : Version} {uid : Uid} {c z : File} (hal : blockLen v ∣ c.length) (hz : Foreign v uid z) (s : UInt32)
    (p : List Byte) : HasBlock v uid (c ++ z) s p ↔ HasBlock v uid c s p :=
  exists_congr fun k => block_append hal hz k s p

theorem blockAt_append {ref : Block} {c z : File} (hal : blockLen ref.header.version ∣ c.length)
    (hz : Foreign ref.header.version ref.header.uid z) (k : Nat) :
    blockAt ref (c ++ z) (k * blockLen ref.header.version) = blockAt ref c (k * blockLen ref.header.version) := by
  apply Option.ext
  intro b
  show blockAt ref (c ++ z) _ = some b ↔ blockAt ref c _ = some b
  rw [blockAt_iff, blockAt_iff]
  exact exists_congr fun s => exists_congr fun p => and_congr_left fun _ => block_append hal hz k s p

theorem payload_lengths (hS : S.Ok) : ∀ p ∈ payloads S.rs S.version S.dpb (fileChunks S.version S.bytes), p.length = S.version.dataSize :=
  (payloads_spec (rs := S.rs) hS.lengths hS.valid (cs := fileChunks S.version S.bytes) (by
    intro c hcm
    unfold fileChunks at hcm
    rw [← dataSize_eq] at hcm
    exact (mem_chunksOf _ c hcm).2.1)).2

theorem uses_rs (hS : S.Ok) {d : Dpb} (hd : S.dpb = some d) : S.version.usesRs = true := by
  have := hS.consistent
  unfold verConsistent at this
  rw [hd] at this
  simpa using this

/-- The burst level guessed is the same. -/
theorem guess_append (hS : S.Ok) (hk : Kept S ms c) {mp : List Byte}
    (hcon : IsContainer S.rs S.version S.uid.bytes true S.dpb S.bytes (blockBytes S.version S.uid.bytes 0 mp) c)
    (hmp : metasFromBytes mp = ms) (hblock : IsBlock (blockBytes S.version S.uid.bytes 0 mp) S.version S.uid 0 mp)
    (hz : Foreign S.version S.uid z) {d : Dpb} (hd : S.dpb = some d) (hb1 : d.burst ≤ 1000) :
    guessBurst (c ++ z) none false (blockOf S.version S.uid 0 mp) = guessBurst c none false (blockOf S.version S.uid 0 mp) := by
  have hn := hS.numbers
  unfold Setting.blocks lastSeqNum at hn
  have hI : Intact S.version S.uid d (payloads S.rs S.version S.dpb (fileChunks S.version S.bytes)) c (blockOf S.version S.uid 0 mp) :=
    ⟨uses_rs hS hd, (hS.shards d hd).1, (hS.shards d hd).2.1, (hS.shards d hd).2.2, hb1, payload_lengths hS, by omega,
      ⟨_, mp, hblock, by rw [← hd]; exact hcon⟩, rfl, rfl,
      ⟨_, Decode.metas_blockOf, by rw [hmp, hk.data, hd]; rfl, by rw [hmp, hk.parity, hd]; rfl⟩⟩
  obtain ⟨s1, e1, a1, l1⟩ := Scan.samples_of hI (c ++ z)
  obtain ⟨s2, e2, a2, l2⟩ := Scan.samples_of hI c
  have hs : s1 = s2 := by
    apply List.ext_getElem?
    intro k
    by_cases hkk : k < d.parity + 1002
    · have := blockAt_append (ref := blockOf S.version S.uid 0 mp) hcon.aligned hz k
      change blockAt _ (c ++ z) (k * blockLen S.version) = blockAt _ c (k * blockLen S.version) at this
      rw [a1 k hkk, a2 k hkk, this]
    · rw [List.getElem?_eq_none (by omega), List.getElem?_eq_none (by omega)]
  rw [e1, e2, hs]

/-- What the commands find out about the container. -/
theorem shards_append (hS : S.Ok) (hk : Kept S ms c) {mp : List Byte}
    (hcon : IsContainer S.rs S.version S.uid.bytes true S.dpb S.bytes (blockBytes S.version S.uid.bytes 0 mp) c)
    (hmp : metasFromBytes mp = ms) (hblock : IsBlock (blockBytes S.version S.uid.bytes 0 mp) S.version S.uid 0 mp)
    (hz : Foreign S.version S.uid z) (q : RefParam) (offset : Bool) (hb : Decode.BurstKnown q.burst S.dpb S.blocks)
    (hg : offset = true → q.guessFrom = none) :
    dataParBurst q offset (c ++ z) (blockOf S.version S.uid 0 mp) = .ok S.dpb := by
  have hc := Decode.container_shards hS.lengths hS.shards hS.consistent hcon hblock (by rw [hmp]; exact ⟨hk.data, hk.parity⟩) hS.numbers
    q offset hb hg
  rw [← hc]
  unfold dataParBurst
  have hgf : (if offset = true then q.guessFrom else none) = none := by
    cases offset with
    | false => rfl
    | true => exact hg rfl
  rw [hgf]
  cases hd : S.dpb with
  | none =>
    have := hS.consistent
    unfold verConsistent at this
    rw [hd] at this
    have hu : S.version.usesRs = false := by simpa using this
    rw [if_neg (by change ¬ S.version.usesRs = true; rw [hu]; simp), if_neg (by change ¬ S.version.usesRs = true; rw [hu]; simp)]
  | some d =>
    have : burstOrGuess q.burst none (offset && q.forceMisalign) (c ++ z) (blockOf S.version S.uid 0 mp) =
        burstOrGuess q.burst none (offset && q.forceMisalign) c (blockOf S.version S.uid 0 mp) := by
      unfold burstOrGuess
      cases hbu : q.burst with
      | some b => rfl
      | none =>
        have hb1 : d.burst ≤ 1000 := by
          rcases hb d hd with h | h
          · rw [hbu] at h; cases h
          · exact h.2.1
        simp only [Decode.guess_mis, guess_append hS hk hcon hmp hblock hz hd hb1]
    rw [this]

theorem start_append {mp : List Byte}
    (hcon : IsContainer S.rs S.version S.uid.bytes true S.dpb S.bytes (blockBytes S.version S.uid.bytes 0 mp) c)
    (hblock : IsBlock (blockBytes S.version S.uid.bytes 0 mp) S.version S.uid 0 mp) (z : File) :
    IsBlock (File.readAt (c ++ z) 0 (blockLen S.version)) S.version S.uid 0 mp := by
  have h := Decode.container_start hcon hblock
  rw [File.readAt_append_left]
  · exact h
  · have := isBlock_length h
    rw [File.readAt_length] at this
    omega

/-- The blocks of a container that is followed by something. -/
theorem blocks_append (hS : S.Ok) {mp : List Byte}
    (hcon : IsContainer S.rs S.version S.uid.bytes true S.dpb S.bytes (blockBytes S.version S.uid.bytes 0 mp) c)
    (hblock : IsBlock (blockBytes S.version S.uid.bytes 0 mp) S.version S.uid 0 mp) (hz : Foreign S.version S.uid z) :
    Decode.OnlyBlocksOf S.rs S.version S.uid S.dpb S.bytes (c ++ z) ∧
    ∀ i p, (payloads S.rs S.version S.dpb (fileChunks S.version S.bytes))[i]? = some p →
      HasBlock S.version S.uid (c ++ z) (UInt32.ofNat (i + 1)) p := by
  have hps := (payloads_spec (rs := S.rs) hS.lengths hS.valid (cs := fileChunks S.version S.bytes) (by
    intro c hcm
    unfold fileChunks at hcm
    rw [← dataSize_eq] at hcm
    exact (mem_chunksOf _ c hcm).2.1)).2
  obtain ⟨h1, h2⟩ := Decode.onlyBlocks_container hcon (fun _ => ⟨mp, hblock⟩) hps hS.numbers (fun _ => rfl)
  exact ⟨fun s p h0 h => h1 s p h0 ((hasBlock_append hcon.aligned hz s p).1 h), fun i p h => (hasBlock_append hcon.aligned hz _ p).2 (h2 i p h)⟩

/-- **C80.** Decoding a container that is followed by something else gives the file and its hash. -/
theorem C80_decode (S : Setting) (hS : S.Ok) (ms : List Metadata) (c z : File) (hk : Kept S ms c) (hz : Foreign S.version S.uid z)
    (D : Decode.Env) (hD : D.Calm) (q : Decode.Param) (hq : Decode.Whole q) (hr : Decode.DefaultRef q.ref)
    (hg : q.ref.guessFrom = none) (hb : Decode.BurstKnown q.ref.burst S.dpb S.blocks) (old : File) :
    ∃ R, Decode.toFile D q (c ++ z) old = .ok (S.bytes, R) ∧ R.recorded = firstHsh ms ∧
      (∀ h, firstHsh ms = some h → h.ty.supported = true → R.computed = some (D.hash.bytes h.ty S.bytes)) := by
  obtain ⟨mp, hcon, hmp, hms⟩ := hk.container
  have hblock : IsBlock (blockBytes S.version S.uid.bytes 0 mp) S.version S.uid 0 mp := ⟨rfl, metasToBytes_length hms⟩
  have href := Decode.ref_at_start hr hD.stopRef (D.stop 0) (start_append hcon hblock z)
  have href' := Decode.ref_at_start hr hD.stopRef (D.stop 0) (Decode.container_start hcon hblock)
  have hd := shards_append hS hk hcon hmp hblock hz q.ref true hb (fun _ => hg)
  have hd' := Decode.container_shards hS.lengths hS.shards hS.consistent hcon hblock (by rw [hmp]; exact ⟨hk.data, hk.parity⟩) hS.numbers
    q.ref true hb (fun _ => hg)
  obtain ⟨R0, h0, h1, h2, -⟩ := Decode.C21_container D hD q hq hr S.rs S.version S.uid S.dpb S.bytes _ c old hS.lengths hS.shards
    hS.consistent hcon ms ⟨mp, hblock, hmp⟩ hk.size ⟨hk.data, hk.parity⟩ hS.numbers (by
      unfold Decode.BurstKnown at hb
      by_cases hq : q.ref.burst = none
      · refine .inr ⟨?_, fun d hd => ?_⟩
        · unfold RefParam.guessFrom at hg
          cases hgb : q.ref.guessBurstFrom with
          | none => rfl
          | some x => rw [hgb] at hg; cases hg
        · rcases hb d hd with h | h
          · rw [hq] at h; cases h
          · exact h.2.1
      · exact .inl hq)
  obtain ⟨out, R, h⟩ := SortedSpec.decodes hD hq old href hd
  obtain ⟨e1, e2, e3⟩ := Decode.C22_order_irrelevant D D hD hD rfl q q hq hq c (c ++ z) old old S.bytes out R0 R 0 0 _ _ h0 h href' href
    rfl rfl rfl (fun s p _ => (hasBlock_append hcon.aligned hz s p).symm) (by
      obtain ⟨ho, -⟩ := blocks_append (z := []) hS hcon hblock (fun k ⟨s, p, hb⟩ => by simp [piece, File.readAt] at hb; exact Repair.nil_not_block hb)
      intro s p p' h0 ha hb
      rw [List.append_nil] at ho
      have := ho s p h0 ha
      rw [ho s p' h0 hb] at this
      exact (Option.some.inj this).symm)
  exact ⟨R, by rw [h, e1], by rw [e2, h1], fun x hx hs => by rw [e3, h2 x hx hs]⟩

/-- **C80.** Sorting it gives the container alone. -/
theorem C80_sort (S : Setting) (hS : S.Ok) (ms : List Metadata) (c z : File) (hk : Kept S ms c) (hz : Foreign S.version S.uid z)
    (E : Sort.Env) (hE : E.Calm) (q : Sort.Param) (hq : Sort.Whole q) (hr : Decode.DefaultRef q.ref) (hg : q.ref.guessFrom = none)
    (hb : Decode.BurstKnown q.ref.burst S.dpb S.blocks) (old : File) :
    ∃ d st o, Sort.sortFile E q (c ++ z) old = .ok (some d, st, o) ∧ d.file = c := by
  obtain ⟨mp, hcon, hmp, hms⟩ := hk.container
  have hblock : IsBlock (blockBytes S.version S.uid.bytes 0 mp) S.version S.uid 0 mp := ⟨rfl, metasToBytes_length hms⟩
  have href := Decode.ref_at_start hr hE.stopRef (E.stop 0) (start_append hcon hblock z)
  have hd := shards_append hS hk hcon hmp hblock hz q.ref true hb (fun _ => hg)
  obtain ⟨ho, ha⟩ := blocks_append hS hcon hblock hz
  refine Sort.C30_sorts E hE q hq S.rs S.version S.uid S.dpb S.bytes _ mp c (c ++ z) old hS.lengths hS.valid hcon hblock hS.numbers 0 _
    href rfl rfl hd ha ho ?_ ?_
  · refine ⟨mp, 0, ?_⟩
    rw [Nat.zero_mul]
    exact start_append hcon hblock z
  · intro p hp
    exact Sort.container_metas hcon hblock (payload_lengths hS) hS.numbers ((hasBlock_append hcon.aligned hz _ _).1 hp)

theorem fill_append {v : Version} {c : File} (hal : blockLen v ∣ c.length) (z : File) : fill v (c ++ z) = c ++ fill v z := by
  obtain ⟨m, hm⟩ := hal
  unfold fill
  rw [List.append_assoc, List.length_append, hm, Nat.mul_add_mod]

/-- **C80.** Repairing it changes nothing.  (`hz'`: also if the last of what follows is completed with zeros, it is no block.) -/
theorem C80_repair (S : Setting) (hS : S.Ok) (ms : List Metadata) (c z : File) (hk : Kept S ms c) (hz : Foreign S.version S.uid z)
    (hz' : Foreign S.version S.uid (fill S.version z)) (d : Dpb) (hd : S.dpb = some d) (R : Repair.Env) (hR : R.Calm) (hrs : R.rs = S.rs)
    (burst : Option Nat) (hb : Decode.BurstKnown burst S.dpb S.blocks) (dry : Bool) :
    ∃ st, Repair.repairFile R burst dry (c ++ z) = .ok (some (⟨c ++ z, []⟩, st)) := by
  obtain ⟨mp, hcon, hmp, hms⟩ := hk.container
  have hblock : IsBlock (blockBytes S.version S.uid.bytes 0 mp) S.version S.uid 0 mp := ⟨rfl, metasToBytes_length hms⟩
  have hstart := start_append hcon hblock z
  obtain ⟨h1, h2, h3⟩ := hS.shards d hd
  have laws : R.rs.Laws := by rw [hrs]; exact hS.laws
  have hal := hcon.aligned
  have hpl := payload_lengths hS
  have hnum := hS.numbers
  unfold Setting.blocks at hnum
  have hsees : Repair.Sees R burst (c ++ z) S.version S.uid mp d := by
    refine ⟨⟨0, Repair.found_at_start hR.ref (by unfold piece; rw [Nat.zero_mul]; exact hstart), hstart⟩, uses_rs hS hd,
      by rw [hmp, hk.data, hd]; rfl, by rw [hmp, hk.parity, hd]; rfl, ?_⟩
    rcases hb d hd with h | ⟨h, hb1, hb2⟩
    · exact .inl h
    · refine .inr ⟨h, ?_⟩
      rw [guess_append hS hk hcon hmp hblock hz hd hb1]
      unfold Setting.blocks at hb2
      exact C36_exact (v := S.version) (uid := S.uid) (d := d) (f := c) (ref := blockOf S.version S.uid 0 mp)
        ⟨uses_rs hS hd, h1, h2, h3, hb1, hpl, by unfold lastSeqNum at hnum; omega, ⟨_, mp, hblock, by rw [← hd]; exact hcon⟩, rfl, rfl,
          ⟨_, Decode.metas_blockOf, by rw [hmp, hk.data, hd]; rfl, by rw [hmp, hk.parity, hd]; rfl⟩⟩ hb2
  obtain ⟨dk, st, hr⟩ := Repair.C26_total R laws burst dry (c ++ z) S.version S.uid mp d hsees
  have hcon' := hcon
  rw [hd] at hcon'
  obtain ⟨hcnt, hps⟩ := Repair.payloads_count hS.laws (v := S.version) h1 h2 h3 S.bytes
  have hund := Repair.C26_undamaged R laws burst dry (c ++ z) S.version S.uid mp d hsees dk st hr
    (fun k hk' => ⟨0, mp, (block_append hal hz k 0 mp).2 ⟨hcon'.metas k hk', hblock.len⟩⟩) (by
    intro t
    have hp : ∀ s, Present S.version S.uid d (c ++ z) s ↔ Present S.version S.uid d c s := fun s =>
      exists_congr fun p => block_append hal hz _ _ _
    have hp' : ∀ s, Present S.version S.uid d (c ++ fill S.version z) s ↔ Present S.version S.uid d c s := fun s =>
      exists_congr fun p => block_append hal hz' _ _ _
    have hpi : presentIn S.version S.uid d (c ++ fill S.version z) t = presentIn S.version S.uid d c t := by
      unfold presentIn
      congr 1
      funext j
      exact decide_eq_decide.2 (hp' _)
    rw [fill_append hal, hpi]
    simp only [hp]
    exact Repair.sets_of_image h1 hcon' hps ⟨_, by rw [hcnt]; exact rfl⟩ t)
  obtain ⟨-, hi, -⟩ := Repair.ops_of_sees laws hsees hr
  refine ⟨st, ?_⟩
  rw [hr]
  cases dk
  simp only at hund hi
  rw [hund.1, hi]

/-! ### update -/

theorem writeAt_append {c : File} {pos : Nat} {bs : List Byte} (h : pos + bs.length ≤ c.length) (z : File) :
    File.writeAt (c ++ z) pos bs = File.writeAt c pos bs ++ z := by
  unfold File.writeAt
  split
  · rfl
  · rw [List.take_append_of_le_length (by omega), List.drop_append_of_le_length h, show pos - (c ++ z).length = 0 by simp; omega,
      show pos - c.length = 0 by omega]
    simp

theorem writeAt_length_inside {c : File} {pos : Nat} {bs : List Byte} (h : pos + bs.length ≤ c.length) :
    (File.writeAt c pos bs).length = c.length := by
  unfold File.writeAt
  split
  · rfl
  · simp
    omega

theorem writes_append_inside (ws : List (Nat × List Byte)) : ∀ (c : File) (_ : ∀ w ∈ ws, w.1 + w.2.length ≤ c.length) (z : File),
    File.writes (c ++ z) ws = File.writes c ws ++ z := by
  induction ws with
  | nil => intro c _ z; rfl
  | cons w ws ih =>
    intro c h z
    have h0 := h w List.mem_cons_self
    unfold File.writes at ih ⊢
    rw [List.foldl_cons, List.foldl_cons, writeAt_append h0]
    exact ih _ (fun x hx => by rw [writeAt_length_inside h0]; exact h x (List.mem_cons_of_mem _ hx)) z

theorem course_congr {full full' fit fit' : Nat → Bool} {stop : Nat → Bool} (ks : List Nat) :
    ∀ i, (∀ k ∈ ks, full k = full' k ∧ fit k = fit' k) → Update.course full fit stop i ks = Update.course full' fit' stop i ks := by
  induction ks with
  | nil => intro i _; rfl
  | cons k ks ih =>
    intro i h
    obtain ⟨e1, e2⟩ := h k List.mem_cons_self
    unfold Update.course
    rw [e1, e2, ih (i + 1) fun x hx => h x (List.mem_cons_of_mem _ hx)]

theorem course_mem {full fit : Nat → Bool} {stop : Nat → Bool} (ks : List Nat) :
    ∀ i, ∀ k ∈ (Update.course full fit stop i ks).1, k ∈ ks ∧ full k = true ∧ fit k = true := by
  induction ks with
  | nil => intro i k h; simp [Update.course] at h
  | cons k ks ih =>
    intro i x h
    unfold Update.course at h
    split at h
    · simp at h
    · rename_i hs
      split at h
      · simp at h
      · rename_i hf
        simp only [Bool.or_eq_true, Bool.not_eq_true', not_or, Bool.not_eq_true, Bool.not_eq_false] at hs hf
        rcases List.mem_cons.1 h with rfl | h
        · exact ⟨List.mem_cons_self, hs.2, hf⟩
        · obtain ⟨a, b⟩ := ih (i + 1) x h
          exact ⟨List.mem_cons_of_mem _ a, b⟩

/-- One pass over the metadata blocks. -/
theorem pass_append {ref : Block} {c z : File} {dpb : Option Dpb} (hal : blockLen ref.header.version ∣ c.length)
    (hz : Foreign ref.header.version ref.header.uid z)
    (hin : ∀ k ∈ metaCopies (some true) dpb, k * blockLen ref.header.version < c.length) (upd : List Metadata) (rem : List MetaId) (w : Bool)
    (stop : Nat → Bool) :
    ∃ ops r, Update.updateBlocks ref dpb upd rem w stop ⟨c ++ z, []⟩ = (⟨c ++ z, ops⟩, r) ∧
      Update.updateBlocks ref dpb upd rem w stop ⟨c, []⟩ = (⟨c, ops⟩, r) ∧ (w = false → ops = []) ∧
      ∀ x ∈ ops, x.1 + x.2.length ≤ c.length := by
  have hfile : ∀ f : File, (Disk.mk f []).file = f := fun f => rfl
  have hfa : ∀ k, Update.fieldsAt ref (c ++ z) k = Update.fieldsAt ref c k := by
    intro k
    unfold Update.fieldsAt
    rw [blockAt_append hal hz]
  have hcourse := course_congr (full := Update.isFull ref (c ++ z)) (full' := Update.isFull ref c) (fit := Update.fits ref upd rem (c ++ z))
    (fit' := Update.fits ref upd rem c) (stop := stop) (metaCopies (some true) dpb) 0 (fun k hk => ⟨by
      unfold Update.isFull
      rw [(piece_append hal z k).1 (hin k hk)], by
      unfold Update.fits
      rw [hfa]⟩)
  rw [Update.updateBlocks_spec, Update.updateBlocks_spec, hfile, hfile, hcourse]
  have hops : ∀ ks, Update.opsAt ref upd rem (c ++ z) ks = Update.opsAt ref upd rem c ks := by
    intro ks
    unfold Update.opsAt Update.newAt
    simp only [hfa]
  rw [hops]
  simp only [hfa]
  cases w with
  | false => exact ⟨[], _, rfl, rfl, fun _ => rfl, by simp⟩
  | true =>
    refine ⟨_, _, rfl, rfl, by simp, ?_⟩
    intro x hx
    rw [List.nil_append] at hx
    unfold Update.opsAt at hx
    obtain ⟨k, hk, e⟩ := List.mem_filterMap.1 hx
    obtain ⟨b, hb, rfl⟩ := Option.map_eq_some_iff.1 e
    obtain ⟨h1, h2, h3⟩ := course_mem _ _ _ hk
    have h4 := Update.newAt_length h3 hb
    unfold Update.isFull piece at h2
    rw [File.readAt_length] at h2
    simp only [decide_eq_true_eq] at h2
    show _ + b.length ≤ _
    have := blockLen_pos ref.header.version
    omega

/-- **C80.** `update` does with it what it does with the container alone: it says the same and writes the same, at the same places; what
follows stays as it is. -/
theorem C80_update (S : Setting) (hS : S.Ok) (ms : List Metadata) (c z : File) (hk : Kept S ms c) (hz : Foreign S.version S.uid z)
    (E : Update.Env) (hE : E.Calm) (r : Update.Cli) (hr : Request S r) :
    (Update.updateFile E (r.param S.hash) (c ++ z)).2 = (Update.updateFile E (r.param S.hash) c).2 ∧
    (Update.updateFile E (r.param S.hash) (c ++ z)).1.ops = (Update.updateFile E (r.param S.hash) c).1.ops ∧
    (Update.updateFile E (r.param S.hash) (c ++ z)).1.file = (Update.updateFile E (r.param S.hash) c).1.file ++ z := by
  obtain ⟨mp, hcon, hmp, hms⟩ := hk.container
  have hblock : IsBlock (blockBytes S.version S.uid.bytes 0 mp) S.version S.uid 0 mp := ⟨rfl, metasToBytes_length hms⟩
  have hal := hcon.aligned
  have href : ∀ {f : File}, IsBlock (File.readAt f 0 (blockLen S.version)) S.version S.uid 0 mp →
      getRefBlockAligned (r.param S.hash).ref (.mustBe .metadata) f E.stopRef (E.stopTest 0) = .ok (0, blockOf S.version S.uid 0 mp) :=
    fun hs => Decode.ref_at_start (q := (r.param S.hash).ref) ⟨rfl, rfl, rfl, .inr (.inr rfl)⟩ hE.stopRef (E.stopTest 0) hs
  have hd := shards_append hS hk hcon hmp hblock hz (r.param S.hash).ref false hr.burst (by simp)
  have hd' := Decode.container_shards hS.lengths hS.shards hS.consistent hcon hblock (by rw [hmp]; exact ⟨hk.data, hk.parity⟩) hS.numbers
    (r.param S.hash).ref false hr.burst (by simp)
  have hin : ∀ k ∈ metaCopies (some true) S.dpb, k * blockLen S.version < c.length := by
    intro k hk'
    have := hcon.metas k hk'
    have hl := congrArg List.length this
    rw [File.readAt_length, isBlock_length hblock] at hl
    have := blockLen_pos S.version
    omega
  unfold Update.updateFile
  simp only [href (start_append hcon hblock z), href (Decode.container_start hcon hblock), hd, hd']
  cases hsz : Update.sizeFor (r.param S.hash) (blockOf S.version S.uid 0 mp) with
  | error e => exact ⟨rfl, rfl, rfl⟩
  | ok size =>
    simp only
    obtain ⟨ops, res, e1, e2, e3, -⟩ := pass_append (ref := blockOf S.version S.uid 0 mp) hal hz hin (r.param S.hash).update (r.param S.hash).remove false
      E.stopTest
    have := e3 rfl
    subst this
    rw [e1, e2]
    cases res with
    | error e => exact ⟨rfl, rfl, rfl⟩
    | ok st =>
      simp only
      have hfields : Update.fieldsFor E (r.param S.hash) (blockOf S.version S.uid 0 mp) S.dpb (c ++ z) size =
          Update.fieldsFor E (r.param S.hash) (blockOf S.version S.uid 0 mp) S.dpb c size := by
        unfold Update.fieldsFor
        cases size with
        | none => rfl
        | some x =>
          obtain ⟨t, n⟩ := x
          unfold Update.sizeFor at hsz
          cases ht : (r.param S.hash).hashType with
          | none => rw [ht] at hsz; simp at hsz
          | some t' =>
            rw [ht, getFsz_meta Decode.metas_blockOf, hmp, hk.size] at hsz
            simp only at hsz
            split at hsz
            · simp only [Except.ok.injEq, Option.some.injEq, Prod.mk.injEq] at hsz
              obtain ⟨rfl, rfl⟩ := hsz
              obtain ⟨-, hne⟩ := hr.hash t' ht
              have hst := ContentHash.stored_container hS.lengths hS.valid hcon hS.numbers
              have hst' : StoredSpec.Stored S.version S.uid S.dpb (c ++ z) S.bytes := by
                intro j hj
                obtain ⟨p, ⟨sq, h1, h2, h3⟩, h4⟩ := hst j hj
                exact ⟨p, ⟨sq, h1, h2, (block_append hal hz _ _ _).2 h3⟩, h4⟩
              simp only
              rw [ContentHash.C42_hash E.hash E.lotCount hE.lots E.stopHash hE.stopHash t' (c ++ z) (blockOf S.version S.uid 0 mp) S.dpb hS.valid
                S.bytes hne hst', ContentHash.C42_hash E.hash E.lotCount hE.lots E.stopHash hE.stopHash t' c (blockOf S.version S.uid 0 mp) S.dpb hS.valid
                S.bytes hne hst]
            · simp at hsz
      have hfile : ∀ f : File, (Disk.mk f []).file = f := fun f => rfl
      rw [hfile, hfile, hfields]
      cases Update.fieldsFor E (r.param S.hash) (blockOf S.version S.uid 0 mp) S.dpb c size with
      | error e => exact ⟨rfl, rfl, rfl⟩
      | ok fields =>
        simp only
        obtain ⟨ops, res, e1, e2, -, e4⟩ := pass_append (ref := blockOf S.version S.uid 0 mp) hal hz hin fields (r.param S.hash).remove
          (!(r.param S.hash).dryRun) E.stopRun
        rw [e1, e2]
        exact ⟨rfl, rfl, writes_append_inside ops c e4 z⟩

/-! ### What may follow -/

theorem piece_zeros (v : Version) (n k : Nat) : ∃ m, piece v (List.replicate n 0) k = List.replicate m 0 := by
  unfold piece File.readAt
  rw [List.drop_replicate, List.take_replicate]
  exact ⟨_, rfl⟩

/-- **C80.** Zeros may follow. -/
theorem C80_zeros (v : Version) (uid : Uid) (n : Nat) : Foreign v uid (List.replicate n 0) ∧ Foreign v uid (fill v (List.replicate n 0)) := by
  have h : ∀ n, Foreign v uid (List.replicate n 0) := by
    rintro n k ⟨s, p, hb⟩
    obtain ⟨m, hm⟩ := piece_zeros v n k
    rw [hm] at hb
    exact Repair.zeros_not_block hb
  refine ⟨h n, ?_⟩
  unfold fill
  rw [← List.replicate_add]
  exact h _

/-- The beginning of a block tells the version and the uid. -/
theorem block_head {bs : List Byte} {v : Version} {uid : Uid} {s : UInt32} {p : List Byte} (h : IsBlock bs v uid s p) :
    bs[3]? = some (versionByte v) ∧ (bs.drop 6).take 6 = uid.bytes := by
  rw [h.bytes]
  have hu := uid.len
  constructor
  · simp [blockBytes, headerBytes]
  · simp [blockBytes, headerBytes, be16, hu]

theorem uid_ext {a b : Uid} (h : a.bytes = b.bytes) : a = b := by
  cases a
  cases b
  cases h
  rfl

theorem head_of_take {a b : List Byte} (h : a.take 12 = b.take 12) : a[3]? = b[3]? ∧ (a.drop 6).take 6 = (b.drop 6).take 6 := by
  constructor
  · have := congrArg (·[3]?) h
    simpa [List.getElem?_take] using this
  · have := congrArg (·.drop 6) h
    simpa [List.drop_take] using this

/-- **C80.** Another container may follow, even completed with zeros: one with another uid, or of another version whose blocks are not
larger. -/
theorem C80_container (S T : Setting) (hT : T.Ok) (ms : List Metadata) (c : File) (hk : Kept T ms c)
    (hdvd : blockLen T.version ∣ blockLen S.version) (hne : T.version ≠ S.version ∨ T.uid ≠ S.uid) :
    Foreign S.version S.uid c ∧ Foreign S.version S.uid (fill S.version c) := by
  obtain ⟨mp, hcon, hmp, hms⟩ := hk.container
  have hblock : IsBlock (blockBytes T.version T.uid.bytes 0 mp) T.version T.uid 0 mp := ⟨rfl, metasToBytes_length hms⟩
  have key : ∀ n, Foreign S.version S.uid (c ++ List.replicate n 0) := by
    rintro n k ⟨s, p, hb⟩
    have hl := isBlock_length hb
    have h16 : 16 ≤ blockLen T.version := by cases T.version <;> decide
    have h16' : 16 ≤ blockLen S.version := by cases S.version <;> decide
    by_cases hin : k * blockLen S.version < c.length
    · obtain ⟨a, ha⟩ := hdvd
      have hpos : k * blockLen S.version = (k * a) * blockLen T.version := by rw [ha, Nat.mul_assoc, Nat.mul_comm a]
      have hpp := (piece_append hcon.aligned (List.replicate n 0) (k * a)).1 (by rw [← hpos]; exact hin)
      have hhead : (piece S.version (c ++ List.replicate n 0) k).take 12 = (piece T.version c (k * a)).take 12 := by
        rw [← hpp]
        unfold piece File.readAt
        rw [List.take_take, List.take_take, hpos, Nat.min_eq_left (by omega), Nat.min_eq_left (by omega)]
      obtain ⟨e1, e2⟩ := head_of_take hhead
      obtain ⟨b1, b2⟩ := block_head hb
      have hany : ∀ (s' : UInt32) (p' : List Byte), ¬ IsBlock (piece T.version c (k * a)) T.version T.uid s' p' := by
        intro s' p' hb'
        obtain ⟨c1, c2⟩ := block_head hb'
        rw [b1, c1] at e1
        rw [b2, c2] at e2
        have hv : T.version = S.version := by
          have := Option.some.inj e1
          revert this
          cases T.version <;> cases S.version <;> simp [versionByte]
        have hu : T.uid = S.uid := uid_ext e2.symm
        rcases hne with h | h
        · exact h hv
        · exact h hu
      by_cases hm : k * a ∈ metaCopies (some true) T.dpb
      · exact hany 0 mp (by rw [show piece T.version c (k * a) = _ from hcon.metas _ hm]; exact hblock)
      · by_cases hdat : ∃ i < (payloads T.rs T.version T.dpb (fileChunks T.version T.bytes)).length, dataWriteIndex (i + 1) (some true) T.dpb = k * a
        · obtain ⟨i, hi, he⟩ := hdat
          refine hany (UInt32.ofNat (i + 1)) ((payloads T.rs T.version T.dpb (fileChunks T.version T.bytes))[i]) ⟨?_, ?_⟩
          · have := hcon.data i _ (List.getElem?_eq_getElem hi)
            rw [he] at this
            exact this
          · rw [payload_lengths hT _ (List.getElem_mem hi), dataSize_eq]
        · have hg := hcon.gaps (k * a) (by rw [← hpos]; exact hin) hm (fun i hi he => hdat ⟨i, hi, he⟩)
          rw [show piece T.version c (k * a) = _ from hg, b1, List.getElem?_replicate, if_pos (by omega)] at e1
          have := Option.some.inj e1
          revert this
          cases S.version <;> simp [versionByte]
    · have : piece S.version (c ++ List.replicate n 0) k = List.replicate (blockLen S.version) 0 := by
        unfold piece at hl ⊢
        rw [File.readAt_append_right (by omega)] at hl ⊢
        have hz : File.readAt (List.replicate n 0) (k * blockLen S.version - c.length) (blockLen S.version) =
            List.replicate (min (blockLen S.version) (n - (k * blockLen S.version - c.length))) 0 := by
          unfold File.readAt
          rw [List.drop_replicate, List.take_replicate]
        rw [hz, List.length_replicate] at hl
        rw [hz, hl]
      rw [this] at hb
      exact Repair.zeros_not_block hb
  refine ⟨?_, key _⟩
  have := key 0
  simpa using this

/-- **C80.** Two containers with different uids, or of different versions with blocks of the same length, one after the other: decoding
gives the file of the first. -/
theorem C80_concatenated (S T : Setting) (hS : S.Ok) (hT : T.Ok) (ms ms' : List Metadata) (c c' : File) (hk : Kept S ms c) (hk' : Kept T ms' c')
    (hv : blockLen T.version = blockLen S.version) (hne : T.version ≠ S.version ∨ T.uid ≠ S.uid) (D : Decode.Env) (hD : D.Calm) (q : Decode.Param) (hq : Decode.Whole q)
    (hr : Decode.DefaultRef q.ref) (hg : q.ref.guessFrom = none) (hb : Decode.BurstKnown q.ref.burst S.dpb S.blocks)
    (hb' : Decode.BurstKnown q.ref.burst T.dpb T.blocks) (old : File) :
    (∃ R, Decode.toFile D q (c ++ c') old = .ok (S.bytes, R)) ∧ ∃ R, Decode.toFile D q (c' ++ c) old = .ok (T.bytes, R) := by
  obtain ⟨R, h, -⟩ := C80_decode S hS ms c c' hk (C80_container S T hT ms' c' hk' (by rw [hv]) hne).1 D hD q hq hr hg hb old
  obtain ⟨R', h', -⟩ := C80_decode T hT ms' c' c hk' (C80_container T S hS ms c hk (by rw [hv]) (hne.imp Ne.symm Ne.symm)).1 D hD q hq hr hg hb' old
  exact ⟨⟨R, h⟩, R', h'⟩

/-- **C80.** From the file to the container and back: what is appended to a container made by `encode` is ignored by `decode` and removed
by `sort`. -/
theorem C80_roundtrip (E : Encode.Env) (p : Encode.Param) (hE : E.Ok p) (hok : p.Ok) (inp : Encode.Input) (hn : Encode.NamesOk p inp)
    (dk : Disk) (rep : Encode.Report) (hrange : inp.file = none ∨ p.fromPos = none ∧ p.toPos = none) (hs : ∀ n, E.stop n = false)
    (henc : Encode.encodeFile E p inp = (dk, .ok rep)) (hme : p.metaEnabled = true) (hsup : p.hashType.supported = true)
    (z : File) (hz : Foreign p.version p.uid z) (D : Decode.Env) (hD : D.Calm) (hh : D.hash = E.hash) (q : Decode.Param) (hq : Decode.Whole q)
    (hr : Decode.DefaultRef q.ref) (hg : q.ref.guessFrom = none)
    (hb : Decode.BurstKnown q.ref.burst p.dpb (payloads E.rs p.version p.dpb (fileChunks p.version inp.bytes)).length)
    (G : Sort.Env) (hG : G.Calm) (q' : Sort.Param) (hq' : Sort.Whole q') (hr' : Decode.DefaultRef q'.ref) (hg' : q'.ref.guessFrom = none)
    (hb' : Decode.BurstKnown q'.ref.burst p.dpb (payloads E.rs p.version p.dpb (fileChunks p.version inp.bytes)).length) (old : File) :
    (∃ R, Decode.toFile D q (dk.file ++ z) old = .ok (inp.bytes, R) ∧ R.recorded = some (E.hash.bytes p.hashType inp.bytes) ∧
      R.computed = R.recorded) ∧
    ∃ d st o, Sort.sortFile G q' (dk.file ++ z) old = .ok (some d, st, o) ∧ d.file = dk.file := by
  obtain ⟨hS, ms, hk, hf⟩ := encoded_kept E p hE hok inp hn dk rep hrange hs henc hme hsup
  obtain ⟨R, h1, h2, h3⟩ := C80_decode _ hS ms dk.file z hk hz D hD q hq hr hg hb old
  refine ⟨⟨R, h1, by rw [h2, hf], ?_⟩, C80_sort _ hS ms dk.file z hk hz G hG q' hq' hr' hg' hb' old⟩
  have ht : ∀ t : HashType, t.supported = true → (E.hash.bytes t inp.bytes).ty.supported = true ∧
      E.hash.bytes (E.hash.bytes t inp.bytes).ty inp.bytes = E.hash.bytes t inp.bytes := by
    intro t h
    cases t <;> first | exact ⟨rfl, rfl⟩ | exact absurd h (by decide)
  rw [h3 _ hf (ht _ hsup).1, h2, hf, hh]
  exact congrArg some (ht _ hsup).2

/-- The search for the reference block with `--force-misalign` and a starting position. -/
theorem ref_behind (pre g : File) (hg : g ≠ []) (choice : RefChoice) (stop : Nat → Bool) (hstop : ∀ k, stop k = false) :
    getRefBlock (pre ++ g) (some pre.length) none true choice stop = getRefBlock g none none true choice stop := by
  have hl := List.length_pos_iff.2 hg
  rw [C34_choice _ _ _ _ _ _ hstop _ rfl, C34_choice _ _ _ _ _ _ hstop _ rfl]
  have h1 : byteRange (some pre.length) none true 0 (.len (pre ++ g).length) none = ⟨g.length, pre.length⟩ := by
    unfold byteRange
    simp only [lastPossiblePos, startPos, endInc, Nat.add_zero, Option.getD_none, scanBlockSize, List.length_append, align]
    rw [if_neg (by omega)]
    simp only [if_true]
    rw [Nat.min_eq_left (by omega), Nat.min_eq_left (by omega)]
    congr 1; omega
  have h2 : byteRange none none true 0 (.len g.length) none = ⟨g.length, 0⟩ := by
    unfold byteRange
    simp only [lastPossiblePos, startPos, endInc, Nat.add_zero, Option.getD_none, scanBlockSize, align]
    rw [if_neg (by omega)]
    congr 1
    simp
    omega
  rw [h1, h2]
  simp

/-- **C80.** A container in the middle of a file, behind any bytes and in front of anything that has no block of it, is decoded with
`--from`, `--ref-from` and `--force-misalign`, given where it begins.  (What follows consists of whole blocks here; the burst level is
stated, unless there is no error correction or the container begins in the first block.) -/
theorem C80_embedded (S : Setting) (hS : S.Ok) (ms : List Metadata) (pre c z : File) (hk : Kept S ms c) (hz : Foreign S.version S.uid z)
    (hzl : blockLen S.version ∣ z.length) (D : Decode.Env) (hD : D.Calm) (p : Decode.Param) (hmp : p.multiPass = none)
    (hfrom : p.ref.fromPos = some pre.length) (hto : p.ref.toPos = none) (hrf : p.ref.refFrom = some pre.length) (hrt : p.ref.refTo = none)
    (hmis : p.ref.forceMisalign = true) (hgb : p.ref.guessBurstFrom = none)
    (hch : p.ref.refChoice = .any ∨ p.ref.refChoice = .prefer .metadata ∨ p.ref.refChoice = .mustBe .metadata)
    (hb : Decode.BurstKnown p.ref.burst S.dpb S.blocks) (hburst : p.ref.burst ≠ none ∨ pre.length < blockLen S.version ∨ S.dpb = none) (old : File) :
    ∃ R, Decode.toFile D p (pre ++ (c ++ z)) old = .ok (S.bytes, R) ∧ R.recorded = firstHsh ms ∧
      (∀ h, firstHsh ms = some h → h.ty.supported = true → R.computed = some (D.hash.bytes h.ty S.bytes)) := by
  obtain ⟨mp, hcon, hmp', hms⟩ := hk.container
  have hblock : IsBlock (blockBytes S.version S.uid.bytes 0 mp) S.version S.uid 0 mp := ⟨rfl, metasToBytes_length hms⟩
  have hstart := start_append hcon hblock z
  have hne : c ++ z ≠ [] := by
    intro e
    rw [e] at hstart
    exact Repair.nil_not_block (by simpa [File.readAt] using hstart)
  let q : Decode.Param := { p with ref := { p.ref with fromPos := none, refFrom := none } }
  have hr : Decode.DefaultRef q.ref := ⟨rfl, hrt, rfl, hch⟩
  have href' := Decode.ref_at_start hr hD.stopRef (D.stop 0) hstart
  have href : getRefBlockM p.ref p.ref.refChoice (pre ++ (c ++ z)) D.stopRef (D.stop 0) = .ok (0, blockOf S.version S.uid 0 mp) := by
    rw [← href']
    unfold getRefBlockM
    rw [hrf, hrt, hmis]
    simp only [Option.some_or]
    rw [ref_behind pre (c ++ z) hne _ _ hD.stopRef]
    simp only [q, Option.map_none, Option.or_none]
  have hall := hcon.aligned
  rw [Verif.C56_embedded D hD p q pre (c ++ z) old hne 0 0 (blockOf S.version S.uid 0 mp)
    (by rw [List.length_append]; exact Nat.dvd_add hall hzl) href href' hfrom hto hgb (.inl hmis)
    (hburst.imp_right (Or.imp_right fun hd => by
      have := hS.consistent
      unfold verConsistent at this
      rw [hd] at this
      change S.version.usesRs = false
      simpa using this)) rfl hto hgb rfl rfl]
  exact C80_decode S hS ms c z hk hz D hD q ⟨rfl, hto, hmp⟩ hr (by unfold RefParam.guessFrom; simp only [q, hgb]; rfl) hb old

/-! ### Instances -/

/-- Another container: 300 bytes, another uid, otherwise like `demo`. -/
def otherParam : Encode.Param := { Encode.demoParam .v17 (some ⟨10, 2, 3⟩) none with uid := ⟨[9, 8, 7, 6, 5, 4], rfl⟩ }

noncomputable def other : Setting := ⟨RsWitness.codec, Decode.calmEnv.hash, .v17, ⟨[9, 8, 7, 6, 5, 4], rfl⟩, some ⟨10, 2, 3⟩, List.replicate 300 5⟩

theorem other_start : other.Ok ∧ ∃ ms c, Kept other ms c := by
  obtain ⟨h1', h2'⟩ := Encode.demo_ok (v := .v17) (dpb := some ⟨10, 2, 3⟩) none rfl (by simp) (fun _ => false)
  have h1 : otherParam.Ok := ⟨h1'.consistent, h1'.shards⟩
  have h2 : (Encode.demoEnv fun _ => false).Ok otherParam := ⟨h2'.1, h2'.2, h2'.3, h2'.4⟩
  obtain ⟨dk, rep, h⟩ := Encode.C24_succeeds _ _ h2 h1 ⟨List.replicate 300 5, some ("b.txt", some 5)⟩ (by
    intro mx hmx
    rw [Encode.maxSize_eq h1] at hmx
    cases hmx
    decide +kernel) (by intro _; decide +kernel)
  obtain ⟨hS, ms, hk, -⟩ := encoded_kept _ _ h2 h1 _ (by
    refine ⟨by decide +kernel, ?_⟩
    intro n t ht
    simp only [Option.some.injEq, Prod.mk.injEq] at ht
    rw [← ht.1]
    decide +kernel) dk rep (.inr ⟨rfl, rfl⟩) (fun _ => rfl) h rfl rfl
  exact ⟨hS, ms, dk.file, hk⟩

theorem guessable {d : Dpb} (hd : d = ⟨10, 2, 3⟩) (blocks : Nat) : Decode.BurstKnown none (some d) blocks := by
  intro x hx
  cases hx
  subst hd
  exact .inr ⟨rfl, by decide, .inl (by decide)⟩

/-- C80_decode, C80_sort, C80_repair, C80_update, C80_zeros: a container followed by 700 zeros. -/
example : ∃ c : File, ∃ ms, Kept demo ms c ∧
    (∃ R, Decode.toFile Decode.calmEnv Decode.plainParam (c ++ List.replicate 700 0) [] = .ok (demo.bytes, R)) ∧
    (∃ d st o, Sort.sortFile Sort.calmEnv Sort.burstParam (c ++ List.replicate 700 0) [] = .ok (some d, st, o) ∧ d.file = c) ∧
    (∃ st, Repair.repairFile Repair.demoEnv none false (c ++ List.replicate 700 0) = .ok (some (⟨c ++ List.replicate 700 0, []⟩, st))) ∧
    (Update.updateFile Update.calmEnv (rename.param demo.hash) (c ++ List.replicate 700 0)).1.file =
      (Update.updateFile Update.calmEnv (rename.param demo.hash) c).1.file ++ List.replicate 700 0 := by
  obtain ⟨hS, dk, rep, ms, -, hk⟩ := demo_start
  obtain ⟨z1, z2⟩ := C80_zeros demo.version demo.uid 700
  obtain ⟨R, r1, -⟩ := C80_decode demo hS ms _ _ hk z1 Decode.calmEnv Decode.calm Decode.plainParam Decode.plain_whole Decode.plain_ref rfl
    (guessable rfl _) []
  exact ⟨dk.file, ms, hk, ⟨R, r1⟩,
    C80_sort demo hS ms _ _ hk z1 Sort.calmEnv Sort.calm Sort.burstParam ⟨rfl, rfl, rfl, rfl⟩ ⟨rfl, rfl, rfl, .inr (.inl rfl)⟩ rfl demo_burst [],
    C80_repair demo hS ms _ _ hk z1 z2 Repair.demoDpb rfl Repair.demoEnv Repair.demo_calm rfl none (guessable rfl _) false,
    (C80_update demo hS ms _ _ hk z1 Update.calmEnv Update.calm rename rename_ok).2.2⟩

/-- C80_container, C80_concatenated: two containers one after the other. -/
example : ∃ c c' : File, ∃ ms ms', Kept demo ms c ∧ Kept other ms' c' ∧
    (∃ R, Decode.toFile Decode.calmEnv Decode.plainParam (c ++ c') [] = .ok (demo.bytes, R)) ∧
    ∃ R, Decode.toFile Decode.calmEnv Decode.plainParam (c' ++ c) [] = .ok (other.bytes, R) := by
  obtain ⟨hS, dk, rep, ms, -, hk⟩ := demo_start
  obtain ⟨hT, ms', c', hk'⟩ := other_start
  exact ⟨dk.file, c', ms, ms', hk, hk', C80_concatenated demo other hS hT ms ms' dk.file c' hk hk' rfl (.inr (by
    intro h
    have := congrArg Uid.bytes h
    revert this
    change ¬ ([9, 8, 7, 6, 5, 4] : List Byte) = [1, 2, 3, 4, 5, 6]
    decide)) Decode.calmEnv Decode.calm Decode.plainParam Decode.plain_whole Decode.plain_ref rfl (guessable rfl _) (guessable rfl _) []⟩

/-- C80_roundtrip: a container of version 17 followed by zeros. -/
example : ∃ dk rep R, Encode.encodeFile (Encode.demoEnv fun _ => false) (Encode.demoParam .v17 (some ⟨10, 2, 3⟩) none)
      ⟨List.replicate 1000 7, some ("a.txt", some 5)⟩ = (dk, .ok rep) ∧
    Decode.toFile Decode.calmEnv Decode.plainParam (dk.file ++ List.replicate 700 0) [] = .ok (List.replicate 1000 7, R) := by
  obtain ⟨dk, rep, henc, -⟩ := Repair.demo_encoded
  obtain ⟨h1, h2⟩ := Encode.demo_ok (v := .v17) (dpb := some ⟨10, 2, 3⟩) none rfl (by simp) (fun _ => false)
  obtain ⟨⟨R, r1, -⟩, -⟩ := C80_roundtrip _ _ h2 h1 _ (by
    refine ⟨by decide +kernel, ?_⟩
    intro n t ht
    simp only [Option.some.injEq, Prod.mk.injEq] at ht
    rw [← ht.1]
    decide +kernel) dk rep (.inr ⟨rfl, rfl⟩) (fun _ => rfl) henc rfl rfl _ (C80_zeros _ _ 700).1 Decode.calmEnv Decode.calm rfl Decode.plainParam
    Decode.plain_whole Decode.plain_ref rfl (guessable rfl _) Sort.calmEnv Sort.calm Sort.burstParam ⟨rfl, rfl, rfl, rfl⟩ ⟨rfl, rfl, rfl, .inr (.inl rfl)⟩ rfl
    demo_burst []
  exact ⟨dk, rep, R, henc, r1⟩

/-- C80_embedded: a container between 1000 bytes of something and 1024 zeros. -/
example : ∃ c : File, ∃ R, Decode.toFile Decode.calmEnv
      ⟨⟨.any, some 1000, none, none, some 1000, none, true, some 3⟩, none⟩ (List.replicate 1000 9 ++ (c ++ List.replicate 1024 0)) [] =
    .ok (demo.bytes, R) := by
  obtain ⟨hS, dk, rep, ms, -, hk⟩ := demo_start
  obtain ⟨R, h, -⟩ := C80_embedded demo hS ms (List.replicate 1000 9) dk.file _ hk (C80_zeros demo.version demo.uid 1024).1
    (by rw [List.length_replicate]; exact ⟨2, rfl⟩) Decode.calmEnv Decode.calm
    ⟨⟨.any, some 1000, none, none, some 1000, none, true, some 3⟩, none⟩ rfl (by rw [List.length_replicate]) rfl (by rw [List.length_replicate]) rfl rfl rfl
    (.inl rfl) demo_burst (.inl (by simp)) []
  exact ⟨dk.file, R, h⟩

end Verif.Followed
