import Verif.Props.UpdateResume
import Verif.Props.Sort
import Verif.Props.Recover
import Verif.Props.Copies
import Verif.Props.GuessDamaged
import Verif.Props.Check
/-!
# C65: a container keeps its file through any history of maintenance

A container is renamed, hashed, damaged, repaired, sorted, taken from a disk image, and some of these commands are interrupted and run again:
after any number of such steps in any order it still decodes to the file it was made from.
-/

namespace Verif.History
open Format ContainerSpec LayoutSpec Layout RepairSpec UpdateSpec ScanSpec Scan Misc

/-- What a container is: the codec and the program used for hashing, version, uid, shard counts and burst level, and the file stored. -/
structure Setting where
  rs : RsCodec
  hash : HashFn
  version : Version
  uid : Uid
  dpb : Option Dpb
  bytes : List Byte

/-- Numbers of data and parity blocks. -/
def Setting.blocks (S : Setting) : Nat := (payloads S.rs S.version S.dpb (fileChunks S.version S.bytes)).length

/-- The settings are possible ones. -/
structure Setting.Ok (S : Setting) : Prop where
  laws : S.rs.Laws
  shards : ∀ d, S.dpb = some d → 1 ≤ d.data ∧ 1 ≤ d.parity ∧ d.data + d.parity ≤ 256
  consistent : verConsistent S.version S.dpb = true
  numbers : S.blocks ≤ lastSeqNum

/-- `f` is a container of the file, all metadata blocks have the fields `ms`, and what is recorded there is right. -/
structure Kept (S : Setting) (ms : List Metadata) (f : File) : Prop where
  container : ∃ mp, IsContainer S.rs S.version S.uid.bytes true S.dpb S.bytes (blockBytes S.version S.uid.bytes 0 mp) f ∧
    metasFromBytes mp = ms ∧ metasToBytes ms (blockLen S.version - 16) = some mp
  size : firstFsz ms = some S.bytes.length
  data : firstRsd ms = S.dpb.map (·.data)
  parity : firstRsp ms = S.dpb.map (·.parity)
  hash : ∀ h, firstHsh ms = some h → ∃ t : HashType, t.supported = true ∧ h = S.hash.bytes t S.bytes

/-- What may be asked of `update`: options that do not exclude each other, names that can be stored, hashes that have a name, and no hash
of the empty file (see `C42_empty_violated`). -/
structure Request (S : Setting) (c : Update.Cli) : Prop where
  ok : c.Ok
  fnm : ∀ s, c.fnm = some s → 1 ≤ s.utf8ByteSize ∧ s.utf8ByteSize ≤ 255
  snm : ∀ s, c.snm = some s → 1 ≤ s.utf8ByteSize ∧ s.utf8ByteSize ≤ 255
  hash : ∀ t, c.hash = some t → (∃ name, HashType.ofStr name = some t) ∧ S.bytes ≠ []
  burst : Decode.BurstKnown c.burst S.dpb S.blocks

/-- The fields a call of `update` is about. -/
def asked (c : Update.Cli) : List MetaId :=
  (if c.fnm.isSome || c.noFnm then [.fnm] else []) ++ (if c.snm.isSome || c.noSnm then [.snm] else []) ++
    (if c.hash.isSome || c.noHsh then [.hsh] else [])

/-- `g` is `f` damaged in bursts that `repair` can deal with (C25). -/
structure Damaged (S : Setting) (d : Dpb) (f g : File) : Prop where
  length : g.length = f.length
  bursts : ∃ bursts : List (Nat × Nat), (∀ b ∈ bursts, b.2 ≤ d.burst) ∧ (∀ s, (within d bursts s).length ≤ d.parity) ∧
    ∀ k, piece S.version g k = piece S.version f k ∨ hit bursts k = true ∧ Broken S.version (piece S.version g k)
  gaps : GapsClean S.version d S.blocks g

/-- The file after `repair`, which is given the burst level or has to guess it. -/
def repaired (R : Repair.Env) (burst : Option Nat) (g : File) : File :=
  match Repair.repairFile R burst false g with
  | .ok (some (dk, _)) => dk.file
  | _ => g

/-- One thing that happens to a container, with the fields it is about. -/
inductive Step (S : Setting) : List MetaId → File → File → Prop
  /-- `update`, dry run or not, whether it succeeds or not. -/
  | update {f : File} (E : Update.Env) (hE : E.Calm) (hH : E.hash = S.hash) (c : Update.Cli) (hc : Request S c) :
      Step S (asked c) f (Update.updateFile E (c.param S.hash) f).1.file
  /-- `update` interrupted by the user at any time, and run again. -/
  | updateAgain {f : File} (E E' : Update.Env) (hE : E.Sticky) (hl : 0 < E.lotCount) (hE' : E'.Calm) (hH : E.hash = S.hash)
      (hH' : E'.hash = S.hash) (c : Update.Cli) (hc : Request S c) :
      Step S (asked c) f (Update.updateFile E' (c.param S.hash) (Update.updateFile E (c.param S.hash) f).1.file).1.file
  /-- The blocks in any order, and any number of times, but each that is not blank at least once; then `sort`. -/
  | sort {f : File} (E : Sort.Env) (hE : E.Calm) (q : Sort.Param) (hq : Sort.Whole q) (hr : Decode.DefaultRef q.ref)
      (hch : q.ref.refChoice = .prefer .metadata ∨ q.ref.refChoice = .mustBe .metadata)
      (hb : ∀ d, S.dpb = some d → q.ref.burst = some d.burst) (bs : List (List Byte))
      (hbs : ∀ b ∈ bs, b ∈ chunksOf (blockLen S.version) f)
      (hall : ∀ b ∈ chunksOf (blockLen S.version) f, b ≠ List.replicate (blockLen S.version) 0 → b ∈ bs) (old : File)
      (d : Disk) (st : Sort.Stats) (o : Sort.Order) (hs : Sort.sortFile E q bs.flatten old = .ok (some d, st, o)) : Step S [] f d.file
  /-- `sort` of the container as it is; the burst level may be guessed. -/
  | sortAsIs {f : File} (E : Sort.Env) (hE : E.Calm) (q : Sort.Param) (hq : Sort.Whole q) (hr : Decode.DefaultRef q.ref)
      (hg : q.ref.guessFrom = none) (hb : Decode.BurstKnown q.ref.burst S.dpb S.blocks) (old : File)
      (d : Disk) (st : Sort.Stats) (o : Sort.Order) (hs : Sort.sortFile E q f old = .ok (some d, st, o)) : Step S [] f d.file
  /-- Damage, then `repair`. -/
  | repair {f g : File} (R : Repair.Env) (hR : R.Calm) (hrs : R.rs = S.rs) (d : Dpb) (hd : S.dpb = some d) (hB : 1 ≤ d.burst)
      (hg : Damaged S d f g) : Step S [] f (repaired R (some d.burst) g)
  /-- Damage, then `repair` without the level being stated (C58). -/
  | repairGuessed {f g : File} (R : Repair.Env) (hR : R.Calm) (hrs : R.rs = S.rs) (d : Dpb) (hd : S.dpb = some d) (hB : 1 ≤ d.burst)
      (hD : 2 ≤ d.data) (hlook : (d.parity + 1) * d.burst ≤ 1000) (hne : S.bytes ≠ []) (hg : Damaged S d f g) : Step S [] f (repaired R none g)
  /-- Damage, then a `repair` during which the computer crashes, then `repair`. -/
  | repairAgain {f g g' : File} (R R' : Repair.Env) (hR : R.Sticky) (hR' : R'.Calm) (hrs : R.rs = S.rs) (hrs' : R'.rs = S.rs) (d : Dpb)
      (hd : S.dpb = some d) (hB : 1 ≤ d.burst) (hg : Damaged S d f g) (dk : Disk) (st : Repair.Stats)
      (hr : Repair.repairFile R (some d.burst) false g = .ok (some (dk, st))) (hg' : Crashed S.version dk.ops g g') :
      Step S [] f (repaired R' (some d.burst) g')
  /-- `update` during which the computer crashes, leaving at least one copy of the metadata intact; then `update` again and `repair`. -/
  | updateCrashed {f g : File} (E E' : Update.Env) (hE : E.Sticky) (hl : 0 < E.lotCount) (hE' : E'.Calm) (hH : E.hash = S.hash)
      (hH' : E'.hash = S.hash) (c : Update.Cli) (hc : Request S c) (d : Dpb) (hd : S.dpb = some d) (hB : 1 ≤ d.burst)
      (hb : c.burst = some d.burst) (hg : Crashed S.version (Update.updateFile E (c.param S.hash) f).1.ops f g)
      (hleft : ∃ k ∈ metaCopies (some true) (some d), ValidAt S.version S.uid g k) (R : Repair.Env) (hR : R.Calm) (hrs : R.rs = S.rs) :
      Step S (asked c) f (repaired R (some d.burst) (Update.updateFile E' (c.param S.hash) g).1.file)
  /-- The blocks lie scattered on a disk image, of every set at least as many as it has data blocks (C55): `rescue`, stopped and resumed
  any number of times, then `sort` of the file it has made, then `repair`. -/
  | restore {f : File} (E : Rescue.Env) (hE : RescueSpec.Ok E) (hs : ∀ n, E.stop n = false) (he : RescueSpec.NoErr E) (p : Rescue.Param)
      (hp : p.fromPos = none ∧ p.toPos = none) (hall : p.onlyBlock = none ∧ (p.onlyUid = none ∨ p.onlyUid = some S.uid))
      (d : Dpb) (hd : S.dpb = some d) (ps : List Piece)
      (h : RecoverSpec.Scattered S.version S.uid (payloads S.rs S.version S.dpb (fileChunks S.version S.bytes))
        ((f.readAt 0 (blockLen S.version)).drop 16) ps) (tail : List Byte) (ht : tail.length < 128)
      (henough : ∀ t, t * (d.data + d.parity) < S.blocks → d.data ≤ RecoverSpec.foundIn S.version S.uid d ps t)
      (hlen : (ps.flatMap Piece.bytes ++ tail).length < 2 ^ 64) (dir0 dir : RescueSpec.Dir) (hdir : dir0 (upperHex S.uid.bytes) = [])
      (log : Option File) (hpause : RescueSpec.Paused p (ps.flatMap Piece.bytes ++ tail) dir0 dir log) (ct : Rescue.Counters)
      (hct : Rescue.readLog (Rescue.required p (ps.flatMap Piece.bytes ++ tail)) log = some ct) (k : Nat) (s)
      (hk : (Rescue.ring E p (ps.flatMap Piece.bytes ++ tail) (Rescue.required p (ps.flatMap Piece.bytes ++ tail))).Steps k
        (Rescue.initial E p (ps.flatMap Piece.bytes ++ tail) ct) s)
      (hend : ∀ s', ¬ (Rescue.ring E p (ps.flatMap Piece.bytes ++ tail) (Rescue.required p (ps.flatMap Piece.bytes ++ tail))).Step s s')
      (F : Sort.Env) (hF : F.Calm) (qs : Sort.Param) (hqs : Sort.Whole qs) (hrs : Recover.SeeksMeta qs.ref) (hbs : qs.ref.burst = some d.burst)
      (old : File) (dk : Disk) (st : Sort.Stats) (o : Sort.Order)
      (hsort : Sort.sortFile F qs (dir.after (s.thread 2).st.events (upperHex S.uid.bytes)) old = .ok (some dk, st, o))
      (R : Repair.Env) (hR : R.Calm) (hrs' : R.rs = S.rs) : Step S [] f (repaired R (some d.burst) dk.file)

  /-- What is left of several copies, in which every block is intact at least once (C69), put one behind the other; then `sort`. -/
  | merge {f : File} (copies : List File) (hl : ∀ g ∈ copies, CopiesSpec.LeftOf S.version f g)
      (hm : ∃ k ∈ metaCopies (some true) S.dpb, CopiesSpec.Survives S.version f copies k)
      (hall : ∀ s, 1 ≤ s → s ≤ S.blocks → CopiesSpec.BlockSurvives S.version S.dpb f copies s)
      (E : Sort.Env) (hE : E.Calm) (q : Sort.Param) (hq : Sort.Whole q) (hr : Recover.SeeksMeta q.ref)
      (hb : ∀ d, S.dpb = some d → q.ref.burst = some d.burst) (old : File)
      (dk : Disk) (st : Sort.Stats) (o : Sort.Order) (hs : Sort.sortFile E q copies.flatten old = .ok (some dk, st, o)) : Step S [] f dk.file
  /-- The same with enough blocks of each set intact at least once; then `sort` and `repair`. -/
  | mergeRepair {f : File} (d : Dpb) (hd : S.dpb = some d) (copies : List File) (hl : ∀ g ∈ copies, CopiesSpec.LeftOf S.version f g)
      (hm : ∃ k ∈ metaCopies (some true) S.dpb, CopiesSpec.Survives S.version f copies k)
      (henough : ∀ t, t * (d.data + d.parity) < S.blocks → d.data ≤ CopiesSpec.survivingIn S.version d f copies t)
      (E : Sort.Env) (hE : E.Calm) (q : Sort.Param) (hq : Sort.Whole q) (hr : Recover.SeeksMeta q.ref) (hb : q.ref.burst = some d.burst) (old : File)
      (dk : Disk) (st : Sort.Stats) (o : Sort.Order) (hs : Sort.sortFile E q copies.flatten old = .ok (some dk, st, o))
      (R : Repair.Env) (hR : R.Calm) (hrs : R.rs = S.rs) : Step S [] f (repaired R (some d.burst) dk.file)

/-- Any number of steps, with all the fields they are about. -/
inductive Steps (S : Setting) : List MetaId → File → File → Prop
  | nil {f : File} : Steps S [] f f
  | cons {ids ids' : List MetaId} {f g h : File} : Step S ids f g → Steps S ids' g h → Steps S (ids ++ ids') f h

/-! ### What the command line gives -/

theorem ofStr_type {name : String} {t : HashType} (h : HashType.ofStr name = some t) :
    t.supported = true ∧ t ≠ .sha2_256 ∧ t ≠ .sha2_512_512 := by
  unfold HashType.ofStr at h
  split at h
  · rename_i t' ht
    split at h
    · rename_i hs
      cases h
      refine ⟨hs, ?_⟩
      unfold HashType.ofLower at ht
      split at ht <;> cases ht <;> simp
    · simp at h
  · simp at h

theorem request_ids (H : HashFn) (c : Update.Cli) (id : MetaId) (h : id ∉ asked c) :
    id ∉ (c.param H).update.map (·.id) ∧ id ∉ (c.param H).remove := by
  unfold asked at h
  unfold Update.Cli.param
  revert h
  obtain ⟨a, b, t, na, nb, nt, -, -⟩ := c
  cases a <;> cases b <;> cases t <;> cases na <;> cases nb <;> cases nt <;> simp [Metadata.id] <;> tauto

theorem request_plain {S : Setting} {c : Update.Cli} (h : Request S c) : (c.param S.hash).Plain := by
  intro m hm
  unfold Update.Cli.param at hm
  simp only [List.mem_append, Option.mem_toList, Option.map_eq_some_iff] at hm
  rcases hm with (⟨s, hs, rfl⟩ | ⟨s, hs, rfl⟩) | ⟨t, ht, rfl⟩
  · exact ⟨h.fnm s hs, by simp [Metadata.id], by simp [Metadata.id]⟩
  · exact ⟨h.snm s hs, by simp [Metadata.id], by simp [Metadata.id]⟩
  · obtain ⟨⟨name, hn⟩, -⟩ := h.hash t ht
    exact ⟨(ofStr_type hn).2, by simp [Metadata.id], by simp [Metadata.id]⟩

/-! ### Fields -/

theorem firstHsh_filter (ms : List Metadata) : firstHsh ms = firstHsh (ms.filter fun m => m.id = .hsh) := by
  unfold firstHsh
  induction ms with
  | nil => rfl
  | cons m ms ih => cases m <;> simp [Metadata.id, ih]

theorem firstHsh_get {ms : List Metadata} {h : HashBytes} (hg : getMeta ms .hsh = some (.hsh h)) : firstHsh ms = some h := by
  unfold getMeta at hg
  unfold firstHsh
  induction ms with
  | nil => simp at hg
  | cons m ms ih =>
    cases m <;> simp_all [Metadata.id]

/-- The hash recorded after `update`. -/
theorem hash_after {S : Setting} {c : Update.Cli} (hc : Request S c) {ms : List Metadata}
    (hms : ∀ h, firstHsh ms = some h → ∃ t : HashType, t.supported = true ∧ h = S.hash.bytes t S.bytes) :
    ∀ h, firstHsh (changed ((c.param S.hash).filled S.hash S.bytes) (c.param S.hash).remove ms) = some h →
      ∃ t : HashType, t.supported = true ∧ h = S.hash.bytes t S.bytes := by
  intro h hh
  cases ht : c.hash with
  | none =>
    have hid : MetaId.hsh ∉ ((c.param S.hash).filled S.hash S.bytes).map (·.id) := by
      rw [Update.filled_ids]
      unfold Update.Cli.param
      rw [ht]
      cases c.fnm <;> cases c.snm <;> simp [Metadata.id]
    rw [firstHsh_filter, Update.changed_filter hid] at hh
    split at hh
    · simp [firstHsh] at hh
    · rw [← firstHsh_filter] at hh
      exact hms h hh
  | some t =>
    obtain ⟨⟨name, hn⟩, -⟩ := hc.hash t ht
    refine ⟨t, (ofStr_type hn).1, ?_⟩
    have hrem : MetaId.hsh ∉ (c.param S.hash).remove := by
      have hno : c.noHsh = false := by
        cases hx : c.noHsh with
        | false => rfl
        | true => have := hc.ok.2.2 hx; rw [ht] at this; simp at this
      unfold Update.Cli.param
      rw [hno]
      cases c.noFnm <;> cases c.noSnm <;> simp
    have hlast : lastFor ((c.param S.hash).filled S.hash S.bytes) .hsh = some (.hsh (S.hash.bytes t S.bytes)) := by
      unfold Update.Param.filled Update.Cli.param lastFor withHash
      rw [ht]
      cases c.fnm <;> cases c.snm <;> simp [Metadata.id]
    have := firstHsh_get (Update.changed_get hlast hrem (ms := ms))
    rw [this] at hh
    exact (Option.some.inj hh).symm

/-! ### The steps -/

variable {S : Setting} {ms : List Metadata} {f : File}

theorem Setting.Ok.lengths (h : S.Ok) : RsLen S.rs S.version S.dpb := by
  intro x hx sh e1 e2
  obtain ⟨h1, h2, h3⟩ := h.shards x hx
  exact h.laws.encode_length _ _ _ _ h1 h2 h3 e1 e2

theorem Setting.Ok.valid (h : S.Ok) : Valid S.dpb := fun d hd => (h.shards d hd).1

/-- What `update` finds out about a container. -/
theorem sees (hS : S.Ok) (hk : Kept S ms f) {mp : List Byte}
    (hcon : IsContainer S.rs S.version S.uid.bytes true S.dpb S.bytes (blockBytes S.version S.uid.bytes 0 mp) f)
    (hmp : metasFromBytes mp = ms) (hblock : IsBlock (blockBytes S.version S.uid.bytes 0 mp) S.version S.uid 0 mp)
    {E : Update.Env} (hE : E.Calm) {p : Update.Param} (hb : Decode.BurstKnown p.burst S.dpb S.blocks) :
    Update.Sees E p f S.version S.uid mp S.dpb := by
  have hstart := Decode.container_start hcon hblock
  have href := Decode.ref_at_start (q := p.ref) ⟨rfl, rfl, rfl, .inr (.inr rfl)⟩ hE.stopRef (E.stopTest 0) hstart
  refine ⟨⟨0, ?_⟩, Decode.container_shards hS.lengths hS.shards hS.consistent hcon hblock (by rw [hmp]; exact ⟨hk.data, hk.parity⟩) hS.numbers
    p.ref false hb (by simp)⟩
  have h : getRefBlockAligned p.ref (.mustBe .metadata) f E.stopRef (E.stopTest 0) = .ok (0, blockOf S.version S.uid 0 mp) := href
  unfold getRefBlockAligned at h
  change (match getRefBlock f none none false (.mustBe .metadata) E.stopRef with | none => _ | some x => _) = _ at h
  split at h
  · split at h <;> simp at h
  · rename_i x hx
    simp only [Except.ok.injEq] at h
    rw [← h]; exact hx

/-- A container, not changed or changed in its fields as asked. -/
theorem update_step (hS : S.Ok) (hk : Kept S ms f) (E : Update.Env) (hE : E.Calm) (hH : E.hash = S.hash) (c : Update.Cli) (hc : Request S c) :
    ∃ ms', Kept S ms' (Update.updateFile E (c.param S.hash) f).1.file ∧
      (ms' = ms ∨ ms' = changed ((c.param S.hash).filled S.hash S.bytes) (c.param S.hash).remove ms) := by
  obtain ⟨mp, hcon, hmp, hms⟩ := hk.container
  have hlen := metasToBytes_length hms
  have hblock : IsBlock (blockBytes S.version S.uid.bytes 0 mp) S.version S.uid 0 mp := ⟨rfl, hlen⟩
  have hhash : ∀ t, (c.param S.hash).hashType = some t → t.supported = true ∧ firstFsz ms = some S.bytes.length ∧ S.bytes ≠ [] := by
    intro t ht
    obtain ⟨⟨name, hn⟩, hne⟩ := hc.hash t ht
    exact ⟨(ofStr_type hn).1, hk.size, hne⟩
  by_cases hd : (c.param S.hash).dryRun = true
  · rw [Update.C27_update_dry E _ f hd]
    exact ⟨ms, hk, .inl rfl⟩
  · by_cases hfit : metaSpace (changed (c.param S.hash).update (c.param S.hash).remove ms) ≤ blockLen S.version - 16
    · obtain ⟨dk, bs, h1, h2, h3, h4⟩ := Update.container_written E hE (c.param S.hash) (Update.cli_hashOk _ _) (by simpa using hd) S.rs
        S.version S.uid S.dpb S.bytes _ f hS.lengths hS.shards hS.consistent hcon ms ⟨mp, hblock, hmp⟩ ⟨hk.data, hk.parity⟩ hS.numbers
        hc.burst hhash hfit
      rw [hH] at h4
      change metasToBytes (changed ((c.param S.hash).filled S.hash S.bytes) (c.param S.hash).remove ms) _ = some bs at h4
      refine ⟨_, ?_, .inr rfl⟩
      rw [h1]
      have hf := Update.filled_fields (Update.cli_keeps S.hash c) S.hash S.bytes ms
      refine ⟨⟨bs, h2, ?_, h4⟩, by rw [hf.1]; exact hk.size, by rw [hf.2.1]; exact hk.data, by rw [hf.2.2]; exact hk.parity,
        hash_after hc hk.hash⟩
      rw [← hmp] at h4 ⊢
      exact Update.changed_readable (Update.filled_plain (request_plain hc) _ _) _ _ h4
    · refine ⟨ms, ?_, .inl rfl⟩
      have h0 : (0 : Nat) ∈ metaCopies (some true) S.dpb := by
        cases S.dpb with
        | none => simp [metaCopies]
        | some d => exact List.mem_map.2 ⟨0, List.mem_range.2 (by omega), by simp⟩
      have hsees : Update.Sees E (c.param S.hash) f S.version S.uid mp S.dpb := sees hS hk hcon hmp hblock hE hc.burst
      rw [(Update.C28_no_fit E hE.sticky (c.param S.hash) f S.version S.uid mp S.dpb hsees 0 h0 mp
        (by rw [show piece S.version f 0 = _ from hcon.metas 0 h0]; exact hblock) (by rw [hmp]; omega)).1]
      exact hk

/-- `update` without room for the fields, or as a dry run, writes nothing, whenever it is interrupted. -/
theorem nothing_written (hS : S.Ok) (hk : Kept S ms f) (E : Update.Env) (hE : E.Sticky) (c : Update.Cli) (hc : Request S c)
    (h : ¬ ((c.param S.hash).dryRun = false ∧
      metaSpace (changed (c.param S.hash).update (c.param S.hash).remove ms) ≤ blockLen S.version - 16)) :
    (Update.updateFile E (c.param S.hash) f).1 = ⟨f, []⟩ := by
  obtain ⟨mp, hcon, hmp, hms⟩ := hk.container
  have hblock : IsBlock (blockBytes S.version S.uid.bytes 0 mp) S.version S.uid 0 mp := ⟨rfl, metasToBytes_length hms⟩
  by_cases hd : (c.param S.hash).dryRun = true
  · exact Update.C27_update_dry E _ f hd
  · have hfit : ¬ metaSpace (changed (c.param S.hash).update (c.param S.hash).remove ms) ≤ blockLen S.version - 16 :=
      fun h' => h ⟨by simpa using hd, h'⟩
    have h0 : (0 : Nat) ∈ metaCopies (some true) S.dpb := by
      cases S.dpb with
      | none => simp [metaCopies]
      | some d => exact List.mem_map.2 ⟨0, List.mem_range.2 (by omega), by simp⟩
    rcases Update.updateFile_cases E (c.param S.hash) f with ⟨e', h'⟩ | ⟨v', uid', mp', dpb', fields, hs', hw, hc', h'⟩
    · rw [h']
    · obtain ⟨⟨y, hy⟩, hsh⟩ := sees hS hk hcon hmp hblock (E := ⟨E.hash, 1, fun _ => false, fun _ => false, fun _ => false, fun _ => false⟩)
        ⟨by simp, fun _ => rfl, fun _ => rfl, fun _ => rfl, fun _ => rfl⟩ (p := c.param S.hash) hc.burst
      obtain ⟨x, hx⟩ := hs'.found
      have hxy := Repair.ref_same (fun _ => rfl) hx hy
      exact (Update.C28_no_fit E hE (c.param S.hash) f S.version S.uid mp S.dpb ⟨⟨y, by rw [hx, hxy]⟩, hsh⟩ 0 h0 mp
        (by rw [show piece S.version f 0 = _ from hcon.metas 0 h0]; exact hblock) (by rw [hmp]; omega)).1

theorem update_again (hS : S.Ok) (hk : Kept S ms f) (E E' : Update.Env) (hE : E.Sticky) (hl : 0 < E.lotCount) (hE' : E'.Calm)
    (hH : E.hash = S.hash) (hH' : E'.hash = S.hash) (c : Update.Cli) (hc : Request S c) :
    (Update.updateFile E' (c.param S.hash) (Update.updateFile E (c.param S.hash) f).1.file).1.file =
      (Update.updateFile E' (c.param S.hash) f).1.file := by
  obtain ⟨mp, hcon, hmp, hms⟩ := hk.container
  have hlen := metasToBytes_length hms
  by_cases ht : (c.param S.hash).dryRun = false ∧
      metaSpace (changed (c.param S.hash).update (c.param S.hash).remove ms) ≤ blockLen S.version - 16
  · refine (Update.C52_interrupted E E' hE hl (hH'.trans hH.symm) hE' S.rs S.version S.uid S.dpb S.bytes mp f (c.param S.hash) ?_).1
    refine ⟨hS.lengths, hS.shards, hS.consistent, hlen, hcon, by rw [hmp]; exact ⟨hk.data, hk.parity⟩, hS.numbers, hc.burst,
      request_plain hc, Update.cli_keeps _ _, Update.cli_hashOk _ _, ht.1, ?_, by rw [hmp]; exact ht.2⟩
    intro t ht
    obtain ⟨⟨name, hn⟩, hne⟩ := hc.hash t ht
    exact ⟨(ofStr_type hn).1, by rw [hmp]; exact hk.size, hne⟩
  · rw [nothing_written hS hk E hE c hc ht]; rfl

/-- The container as `repair` needs it. -/
theorem Kept.sound (hS : S.Ok) (hk : Kept S ms f) {d : Dpb} (hd : S.dpb = some d) :
    ∃ mp, Repair.Sound S.rs S.version S.uid d S.bytes mp f ∧ metasFromBytes mp = ms := by
  obtain ⟨mp, hcon, hmp, hms⟩ := hk.container
  have hcons := hS.consistent
  have hn := hS.numbers
  unfold Setting.blocks at hn
  rw [hd] at hcon hcons hn
  unfold verConsistent at hcons
  exact ⟨mp, ⟨hcon, hn, by rw [hmp]; exact hms, by rw [hmp]; exact hk.size, by simpa using hcons, by rw [hmp, hk.data, hd]; rfl,
    by rw [hmp, hk.parity, hd]; rfl⟩, hmp⟩

theorem repair_step (hS : S.Ok) (hk : Kept S ms f) {g : File} {R : Repair.Env} (hR : R.Calm) (hrs : R.rs = S.rs) {d : Dpb} (hd : S.dpb = some d)
    (hB : 1 ≤ d.burst) (hg : Damaged S d f g) : repaired R (some d.burst) g = f := by
  obtain ⟨mp, hs, -⟩ := hk.sound hS hd
  obtain ⟨bursts, b1, b2, b3⟩ := hg.bursts
  rw [← hrs] at hs
  obtain ⟨dk, st, r1, -, -, -, r5⟩ := Repair.C25_bursts R (hrs ▸ hS.laws) hR S.version S.uid d S.bytes mp f g hs hB bursts hg.length b1 b2 b3
  have hgap := hg.gaps
  unfold Setting.blocks at hgap
  rw [hd, ← hrs] at hgap
  unfold repaired
  rw [r1]
  exact r5 hgap

theorem repair_guessed (hS : S.Ok) (hk : Kept S ms f) {g : File} {R : Repair.Env} (hR : R.Calm) (hrs : R.rs = S.rs) {d : Dpb} (hd : S.dpb = some d)
    (hB : 1 ≤ d.burst) (hD : 2 ≤ d.data) (hlook : (d.parity + 1) * d.burst ≤ 1000) (hne : S.bytes ≠ []) (hg : Damaged S d f g) :
    repaired R none g = f := by
  obtain ⟨mp, hs, -⟩ := hk.sound hS hd
  obtain ⟨bursts, b1, b2, b3⟩ := hg.bursts
  rw [← hrs] at hs
  obtain ⟨dk, st, r1, -, -, -, r5⟩ := Repair.C58_repair_partial R (hrs ▸ hS.laws) hR S.version S.uid d S.bytes mp f g hs hB hD hlook hne bursts
    hg.length b1 b2 b3
  have hgap := hg.gaps
  unfold Setting.blocks at hgap
  rw [hd, ← hrs] at hgap
  unfold repaired
  rw [r1]
  exact r5 hgap

theorem repair_again (hS : S.Ok) (hk : Kept S ms f) {g g' : File} {R R' : Repair.Env} (hR : R.Sticky) (hR' : R'.Calm) (hrs : R.rs = S.rs)
    (hrs' : R'.rs = S.rs) {d : Dpb} (hd : S.dpb = some d) (hB : 1 ≤ d.burst) (hg : Damaged S d f g) {dk : Disk} {st : Repair.Stats}
    (hr : Repair.repairFile R (some d.burst) false g = .ok (some (dk, st))) (hg' : Crashed S.version dk.ops g g') :
    repaired R' (some d.burst) g' = f := by
  obtain ⟨mp, hs, -⟩ := hk.sound hS hd
  obtain ⟨bursts, b1, b2, b3⟩ := hg.bursts
  rw [← hrs] at hs
  obtain ⟨dk', st', r1, -, -, -, r5⟩ := Repair.C51_crash R (hrs ▸ hS.laws) hR S.version S.uid d S.bytes mp f g hs hB bursts hg.length b1 b2 b3
    dk st hr g' hg' R' (hrs'.trans hrs.symm) hR'
  have hgap := hg.gaps
  unfold Setting.blocks at hgap
  rw [hd, ← hrs] at hgap
  unfold repaired
  rw [r1]
  exact r5 hgap

theorem sort_step (hS : S.Ok) (hk : Kept S ms f) (E : Sort.Env) (hE : E.Calm) (q : Sort.Param) (hq : Sort.Whole q) (hr : Decode.DefaultRef q.ref)
    (hch : q.ref.refChoice = .prefer .metadata ∨ q.ref.refChoice = .mustBe .metadata)
    (hb : ∀ d, S.dpb = some d → q.ref.burst = some d.burst) (bs : List (List Byte))
    (hbs : ∀ b ∈ bs, b ∈ chunksOf (blockLen S.version) f)
    (hall : ∀ b ∈ chunksOf (blockLen S.version) f, b ≠ List.replicate (blockLen S.version) 0 → b ∈ bs) (old : File) :
    ∃ d st o, Sort.sortFile E q bs.flatten old = .ok (some d, st, o) ∧ d.file = f := by
  obtain ⟨mp, hcon, hmp, hms⟩ := hk.container
  have hblock : IsBlock (blockBytes S.version S.uid.bytes 0 mp) S.version S.uid 0 mp := ⟨rfl, metasToBytes_length hms⟩
  have h0 : (0 : Nat) ∈ metaCopies (some true) S.dpb := by
    cases S.dpb with
    | none => simp [metaCopies]
    | some d => exact List.mem_map.2 ⟨0, List.mem_range.2 (by omega), by simp⟩
  refine Sort.C30_permuted E hE q hq hr.refFrom hr.refTo hch S.rs S.version S.uid S.dpb S.bytes _ f old bs hS.lengths hS.valid hS.consistent
    hcon ms ⟨mp, hblock, hmp⟩ ⟨hk.data, hk.parity⟩ hS.numbers hb hbs ?_ (fun b h1 _ h2 => hall b h1 h2)
  apply hall
  · have hl := isBlock_length hblock
    have hpos := blockLen_pos S.version
    have h1 := hcon.metas 0 h0
    rw [Nat.zero_mul] at h1
    rw [← h1]
    refine List.mem_iff_getElem?.2 ⟨0, ?_⟩
    have hne : 0 < f.length := by
      by_contra hz
      have : f = [] := List.length_eq_zero_iff.1 (by omega)
      rw [this] at h1
      rw [← h1] at hl
      simp [File.readAt] at hl
      omega
    rw [Decode.chunksOf_getElem? hpos]
    simp [hne, File.readAt]
  · intro hz
    rw [hz] at hblock
    exact Repair.zeros_not_block hblock

theorem sort_as_is (hS : S.Ok) (hk : Kept S ms f) (E : Sort.Env) (hE : E.Calm) (q : Sort.Param) (hq : Sort.Whole q) (hr : Decode.DefaultRef q.ref)
    (hg : q.ref.guessFrom = none) (hb : Decode.BurstKnown q.ref.burst S.dpb S.blocks) (old : File) :
    ∃ d st o, Sort.sortFile E q f old = .ok (some d, st, o) ∧ d.file = f := by
  obtain ⟨mp, hcon, hmp, hms⟩ := hk.container
  obtain ⟨d, st, o, h1, h2, -⟩ := Sort.C30_idempotent E hE q hq hr S.rs S.version S.uid S.dpb S.bytes _ f old hS.lengths hS.shards hS.consistent
    hcon ms ⟨mp, ⟨rfl, metasToBytes_length hms⟩, hmp⟩ ⟨hk.data, hk.parity⟩ hS.numbers hb hg
  exact ⟨d, st, o, h1, h2⟩

/-- A container has nothing in its gaps. -/
theorem Kept.undamaged (hk : Kept S ms f) {d : Dpb} (hd : S.dpb = some d) : Damaged S d f f := by
  obtain ⟨mp, hcon, -, -⟩ := hk.container
  refine ⟨rfl, ⟨[], by simp, by simp [within], fun k => .inl rfl⟩, ?_⟩
  intro k h1 h2
  by_cases hk : k * blockLen S.version < f.length
  · refine ⟨_, hcon.gaps k hk (by rw [hd]; exact h1) ?_⟩
    intro i hi
    have := h2 (i + 1) (by omega) hi
    rw [hd]
    exact this
  · refine ⟨0, ?_⟩
    unfold piece File.readAt
    rw [List.drop_eq_nil_of_le (by omega)]
    simp

theorem update_crashed (hS : S.Ok) (hk : Kept S ms f) {g : File} (E E' : Update.Env) (hE : E.Sticky) (hl : 0 < E.lotCount) (hE' : E'.Calm)
    (hH : E.hash = S.hash) (hH' : E'.hash = S.hash) (c : Update.Cli) (hc : Request S c) (d : Dpb) (hd : S.dpb = some d) (hB : 1 ≤ d.burst)
    (hb : c.burst = some d.burst) (hg : Crashed S.version (Update.updateFile E (c.param S.hash) f).1.ops f g)
    (hleft : ∃ k ∈ metaCopies (some true) (some d), ValidAt S.version S.uid g k) (R : Repair.Env) (hR : R.Calm) (hrs : R.rs = S.rs) :
    repaired R (some d.burst) (Update.updateFile E' (c.param S.hash) g).1.file = (Update.updateFile E' (c.param S.hash) f).1.file := by
  obtain ⟨mp, hcon, hmp, hms⟩ := hk.container
  have hlen := metasToBytes_length hms
  by_cases ht : (c.param S.hash).dryRun = false ∧
      metaSpace (changed (c.param S.hash).update (c.param S.hash).remove ms) ≤ blockLen S.version - 16
  · have htask : Update.Task R.rs S.version S.uid (some d) S.bytes mp f (c.param S.hash) := by
      rw [hrs, ← hd]
      refine ⟨hS.lengths, hS.shards, hS.consistent, hlen, hcon, by rw [hmp]; exact ⟨hk.data, hk.parity⟩, hS.numbers, hc.burst,
        request_plain hc, Update.cli_keeps _ _, Update.cli_hashOk _ _, ht.1, ?_, by rw [hmp]; exact ht.2⟩
      intro t ht
      obtain ⟨⟨name, hn⟩, hne⟩ := hc.hash t ht
      exact ⟨(ofStr_type hn).1, by rw [hmp]; exact hk.size, hne⟩
    obtain ⟨dk, st, r1, -, r3⟩ := Update.C52_repaired E E' hE hl (hH'.trans hH.symm) hE' R (hrs ▸ hS.laws) hR S.version S.uid d hB S.bytes mp f
      (c.param S.hash) htask (by rw [hmp]; exact hk.size) hb g hg hleft
    unfold repaired
    rw [r1]
    exact r3
  · have h1 := nothing_written hS hk E hE c hc ht
    have h2 := nothing_written hS hk E' hE'.sticky c hc ht
    have : g = f := by
      rw [h1] at hg
      exact Update.file_ext hg.1 fun k => by simpa using hg.2 k
    subst this
    rw [h2]
    exact repair_step hS hk hR hrs hd hB (hk.undamaged hd)

/-- One step. -/
theorem step (hS : S.Ok) (hk : Kept S ms f) {ids : List MetaId} {g : File} (h : Step S ids f g) :
    ∃ ms', Kept S ms' g ∧ ∀ id ∉ ids, ms'.filter (fun m => m.id = id) = ms.filter (fun m => m.id = id) := by
  have hupd : ∀ (c : Update.Cli) ms', (ms' = ms ∨ ms' = changed ((c.param S.hash).filled S.hash S.bytes) (c.param S.hash).remove ms) →
      ∀ id ∉ asked c, ms'.filter (fun m => m.id = id) = ms.filter (fun m => m.id = id) := by
    rintro c ms' (rfl | rfl) id hid
    · rfl
    · obtain ⟨h1, h2⟩ := request_ids S.hash c id hid
      rw [Update.changed_filter (by rw [Update.filled_ids]; exact h1), if_neg h2]
  cases h with
  | update E hE hH c hc =>
    obtain ⟨ms', h1, h2⟩ := update_step hS hk E hE hH c hc
    exact ⟨ms', h1, hupd c ms' h2⟩
  | updateAgain E E' hE hl hE' hH hH' c hc =>
    rw [update_again hS hk E E' hE hl hE' hH hH' c hc]
    obtain ⟨ms', h1, h2⟩ := update_step hS hk E' hE' hH' c hc
    exact ⟨ms', h1, hupd c ms' h2⟩
  | sort E hE q hq hr hch hb bs hbs hall old d st o hs =>
    obtain ⟨d', st', o', h1, h2⟩ := sort_step hS hk E hE q hq hr hch hb bs hbs hall old
    rw [hs] at h1
    simp only [Except.ok.injEq, Prod.mk.injEq, Option.some.injEq] at h1
    rw [h1.1, h2]
    exact ⟨ms, hk, fun _ _ => rfl⟩
  | sortAsIs E hE q hq hr hg hb old d st o hs =>
    obtain ⟨d', st', o', h1, h2⟩ := sort_as_is hS hk E hE q hq hr hg hb old
    rw [hs] at h1
    simp only [Except.ok.injEq, Prod.mk.injEq, Option.some.injEq] at h1
    rw [h1.1, h2]
    exact ⟨ms, hk, fun _ _ => rfl⟩
  | repair R hR hrs d hd hB hg =>
    rw [repair_step hS hk hR hrs hd hB hg]
    exact ⟨ms, hk, fun _ _ => rfl⟩
  | repairGuessed R hR hrs d hd hB hD hlook hne hg =>
    rw [repair_guessed hS hk hR hrs hd hB hD hlook hne hg]
    exact ⟨ms, hk, fun _ _ => rfl⟩
  | repairAgain R R' hR hR' hrs hrs' d hd hB hg dk st hr hg' =>
    rw [repair_again hS hk hR hR' hrs hrs' hd hB hg hr hg']
    exact ⟨ms, hk, fun _ _ => rfl⟩
  | updateCrashed E E' hE hl hE' hH hH' c hc d hd hB hb hg hleft R hR hrs =>
    rw [update_crashed hS hk E E' hE hl hE' hH hH' c hc d hd hB hb hg hleft R hR hrs]
    obtain ⟨ms', h1, h2⟩ := update_step hS hk E' hE' hH' c hc
    exact ⟨ms', h1, hupd c ms' h2⟩
  | restore E hE hs he p hp hall d hd ps h tail ht henough hlen dir0 dir hdir log hpause ct hct k s hk' hend F hF qs hqs hrs hbs old dk st o
      hsort R hR hrs' =>
    obtain ⟨mp, hsound, -⟩ := hk.sound hS hd
    have hmp : (f.readAt 0 (blockLen S.version)).drop 16 = mp := by
      have h0 := hsound.container.metas 0 (List.mem_map.2 ⟨0, List.mem_range.2 (by omega), by simp⟩)
      rw [Nat.zero_mul] at h0
      rw [h0, blockBytes_drop]
    unfold Setting.blocks at henough
    rw [hmp] at h
    rw [hd, ← hrs'] at h henough
    rw [← hrs'] at hsound
    obtain ⟨bound, hrun⟩ := Recover.C55_restore hE hs he p hp S.uid hall R (hrs' ▸ hS.laws) hR S.version d S.bytes mp f hsound ps h tail ht henough
      hlen dir0 dir hdir log hpause ct hct F hF qs hqs hrs hbs ⟨S.hash, 1, id, fun _ => false, fun _ => false, fun _ => false⟩
      ⟨by simp, fun _ => rfl, fun _ => rfl, fun _ => rfl⟩ ⟨⟨.any, none, none, none, none, none, false, some d.burst⟩, none⟩ ⟨rfl, rfl, rfl⟩
      ⟨rfl, rfl, rfl, .inl rfl⟩ (.inl (by simp)) old []
    obtain ⟨-, -, -, dk1, st1, o1, dk', st', out, g1, g2, -, g4, -⟩ := (hrun k s hk').2 hend
    rw [hsort] at g1
    simp only [Except.ok.injEq, Prod.mk.injEq, Option.some.injEq] at g1
    rw [← g1.1] at g2
    have : repaired R (some d.burst) dk.file = f := by
      unfold repaired
      rw [g2]
      exact g4
    rw [this]
    exact ⟨ms, hk, fun _ _ => rfl⟩
  | merge copies hl hm hall E hE q hq hr hb old dk st o hs =>
    obtain ⟨mp, hcon, hmp, hms⟩ := hk.container
    have hsrc : Copies.Source S.rs S.version S.uid S.dpb S.bytes mp f :=
      ⟨hcon, hS.lengths, hS.valid, hS.consistent, hS.numbers, by rw [hmp]; exact hms, by rw [hmp]; exact hk.size, by rw [hmp]; exact hk.data,
        by rw [hmp]; exact hk.parity⟩
    obtain ⟨d', st', o', h1, h2⟩ := Copies.C69_sort hsrc copies hl hm hall E hE q hq hr hb old
    rw [hs] at h1
    simp only [Except.ok.injEq, Prod.mk.injEq, Option.some.injEq] at h1
    rw [h1.1, h2]
    exact ⟨ms, hk, fun _ _ => rfl⟩
  | mergeRepair d hd copies hl hm henough E hE q hq hr hb old dk st o hs R hR hrs =>
    obtain ⟨mp, hsound, -⟩ := hk.sound hS hd
    unfold Setting.blocks at henough
    rw [hd, ← hrs] at henough
    rw [hd] at hm
    rw [← hrs] at hsound
    obtain ⟨dk1, st1, o1, dk', st', out, g1, g2, -, g4, -⟩ := Copies.C69_restore (hrs ▸ hS.laws) hR hsound copies hl hm henough E hE q hq hr hb
      ⟨S.hash, 1, id, fun _ => false, fun _ => false, fun _ => false⟩ ⟨by simp, fun _ => rfl, fun _ => rfl, fun _ => rfl⟩
      ⟨⟨.any, none, none, none, none, none, false, some d.burst⟩, none⟩ ⟨rfl, rfl, rfl⟩ ⟨rfl, rfl, rfl, .inl rfl⟩ (.inl (by simp)) old []
    rw [hs] at g1
    simp only [Except.ok.injEq, Prod.mk.injEq, Option.some.injEq] at g1
    rw [← g1.1] at g2
    have : repaired R (some d.burst) dk.file = f := by
      unfold repaired
      rw [g2]
      exact g4
    rw [this]
    exact ⟨ms, hk, fun _ _ => rfl⟩

/-- What `encode` makes is such a container. -/
theorem encoded_kept (E : Encode.Env) (p : Encode.Param) (hE : E.Ok p) (hok : p.Ok) (inp : Encode.Input) (hn : Encode.NamesOk p inp)
    (dk : Disk) (rep : Encode.Report) (hrange : inp.file = none ∨ p.fromPos = none ∧ p.toPos = none) (hs : ∀ n, E.stop n = false)
    (henc : Encode.encodeFile E p inp = (dk, .ok rep)) (hme : p.metaEnabled = true) (hsup : p.hashType.supported = true) :
    Setting.Ok ⟨E.rs, E.hash, p.version, p.uid, p.dpb, inp.bytes⟩ ∧
    ∃ ms, Kept ⟨E.rs, E.hash, p.version, p.uid, p.dpb, inp.bytes⟩ ms dk.file ∧ firstHsh ms = some (E.hash.bytes p.hashType inp.bytes) := by
  have hh := Encode.C24_whole_input E p hE hok inp hn dk rep hrange hs henc
  obtain ⟨mb, hc, hrec⟩ := hh.container
  obtain ⟨ms, ⟨mp, hmb, rfl⟩, h2, h3, h4, h5, h6⟩ := hrec hme
  rw [hmb.bytes, blockBytes_drop] at h6
  have hb := hmb.bytes
  subst hb
  rw [hme] at hc
  refine ⟨⟨hE.laws, hok.shards, hok.consistent, hh.numbers⟩, _, ⟨⟨mp, hc, rfl, h6⟩, h2, h4, h5, ?_⟩, h3⟩
  intro h hh
  rw [h3] at hh
  exact ⟨p.hashType, hsup, (Option.some.inj hh).symm⟩

/-! ### The theorems -/

/-- **C65.** After any number of steps the container still is a container of the same file, whatever is recorded in it is right, and the
fields that none of the steps was about are the same as before. -/
theorem C65_history (S : Setting) (hS : S.Ok) (ms : List Metadata) (f g : File) (hk : Kept S ms f) (ids : List MetaId) (h : Steps S ids f g) :
    ∃ ms', Kept S ms' g ∧ ∀ id ∉ ids, ms'.filter (fun m => m.id = id) = ms.filter (fun m => m.id = id) := by
  induction h generalizing ms with
  | nil => exact ⟨ms, hk, fun _ _ => rfl⟩
  | cons h1 _ ih =>
    obtain ⟨ms1, k1, e1⟩ := step hS hk h1
    obtain ⟨ms2, k2, e2⟩ := ih ms1 k1
    refine ⟨ms2, k2, fun id hid => ?_⟩
    rw [List.mem_append, not_or] at hid
    rw [e2 id hid.2, e1 id hid.1]

/-- **C65.** Then it decodes to the file, and if a hash is recorded the output has that hash. -/
theorem C65_decode (S : Setting) (hS : S.Ok) (ms : List Metadata) (f g : File) (hk : Kept S ms f) (ids : List MetaId) (h : Steps S ids f g)
    (D : Decode.Env) (hD : D.Calm) (hH : D.hash = S.hash) (q : Decode.Param) (hq : Decode.Whole q) (hr : Decode.DefaultRef q.ref)
    (hb : q.ref.burst ≠ none ∨ q.ref.guessBurstFrom = none ∧ ∀ d, S.dpb = some d → d.burst ≤ 1000) (old : File) :
    ∃ R, Decode.toFile D q g old = .ok (S.bytes, R) ∧ R.outSize = S.bytes.length ∧
      (R.recorded ≠ none → R.computed = R.recorded) ∧ (MetaId.hsh ∉ ids → R.recorded = firstHsh ms) := by
  obtain ⟨ms', hk', e⟩ := C65_history S hS ms f g hk ids h
  obtain ⟨mp, hcon, hmp, hms⟩ := hk'.container
  obtain ⟨R, r1, r2, r3, r4⟩ := Decode.C21_container D hD q hq hr S.rs S.version S.uid S.dpb S.bytes _ g old hS.lengths hS.shards hS.consistent
    hcon ms' ⟨mp, ⟨rfl, metasToBytes_length hms⟩, hmp⟩ hk'.size ⟨hk'.data, hk'.parity⟩ hS.numbers hb
  refine ⟨R, r1, r4, ?_, ?_⟩
  · intro hne
    rw [r2] at hne ⊢
    cases hh : firstHsh ms' with
    | none => exact absurd hh hne
    | some x =>
      obtain ⟨t, ht, rfl⟩ := hk'.hash x hh
      have hs2 : (S.hash.bytes t S.bytes).ty.supported = true := by
        show t.ctxType.supported = true
        revert ht
        cases t <;> decide
      rw [r3 _ hh hs2, hH]
      unfold HashFn.bytes
      cases t <;> rfl
  · intro hid
    rw [r2, firstHsh_filter, e _ hid, ← firstHsh_filter]

/-- **C65.** And `check` finds no fault with it. -/
theorem C65_check (S : Setting) (hS : S.Ok) (ms : List Metadata) (f g : File) (hk : Kept S ms f) (ids : List MetaId) (h : Steps S ids f g)
    (E : Check.Env) (hE : ∀ i, E.stopRef i = false) (q : Check.Param) (hr : Decode.DefaultRef q.ref) (ht : q.ref.toPos = none)
    (hq : q.hashAction = .noHash) (hb : q.reportBlank = false) :
    ∃ r st, Check.checkFile E q g = .ok r ∧ r.blocks = some st ∧ st.failed = 0 := by
  obtain ⟨ms', hk', -⟩ := C65_history S hS ms f g hk ids h
  obtain ⟨mp, hcon, hmp, hms⟩ := hk'.container
  have hblock : IsBlock (blockBytes S.version S.uid.bytes 0 mp) S.version S.uid 0 mp := ⟨rfl, metasToBytes_length hms⟩
  have href := Decode.ref_at_start hr hE (E.stopCheck 0) (Decode.container_start hcon hblock)
  have hok : ∃ r st, Check.checkFile E q g = .ok r ∧ r.blocks = some st := by
    unfold Check.checkFile Check.hashWanted
    rw [href]
    simp [hq]
  obtain ⟨r, st, h1, h2⟩ := hok
  refine ⟨r, st, h1, h2, ?_⟩
  obtain ⟨pos, ref, m, e1, e2, -, -, -, -, e3, -⟩ := Check.C38_check E q g r h1 st h2
  rw [href] at e1
  simp only [Except.ok.injEq, Prod.mk.injEq] at e1
  obtain ⟨-, rfl⟩ := e1
  rw [e3, hb]
  have hrange : Check.rangeOf q.ref (blockOf S.version S.uid 0 mp) g = ⟨if g.length = 0 then 1 else g.length, 0⟩ := by
    unfold Check.rangeOf
    rw [hr.fromPos, ht]
    exact Decode.range_all _ _ _
  rw [hrange] at e2 ⊢
  simp only [Bool.false_eq_true, if_false, Nat.add_zero]
  unfold CheckSpec.countPlaces
  rw [List.countP_eq_zero]
  intro k hkm
  rw [List.mem_range] at hkm
  have hpos := blockLen_pos S.version
  have hkg : (k + 1) * blockLen S.version ≤ g.length := by
    have : k + 1 ≤ (g.length - 0) / blockLen S.version := by
      refine Nat.le_trans (Nat.le_trans hkm e2) ?_
      unfold DecodeSpec.places
      exact Nat.min_le_right _ _
    rw [Nat.sub_zero] at this
    exact (Nat.le_div_iff_mul_le hpos).1 this
  simp only [decide_eq_true_eq]
  unfold CheckSpec.IsBad CheckSpec.placeBytes
  rw [Nat.zero_add]
  rintro ⟨n1, n2, n3⟩
  change ¬ CheckSpec.IsMeta S.version S.uid (g.readAt (k * blockLen S.version) (blockLen S.version)) at n1
  change ¬ CheckSpec.IsData S.version S.uid (g.readAt (k * blockLen S.version) (blockLen S.version)) at n2
  change ¬ CheckSpec.IsBlank (g.readAt (k * blockLen S.version) (blockLen S.version)) at n3
  by_cases hm : k ∈ metaCopies (some true) S.dpb
  · exact n1 ⟨mp, by rw [hcon.metas k hm]; exact hblock⟩
  · by_cases hd : ∃ i < (payloads S.rs S.version S.dpb (fileChunks S.version S.bytes)).length, dataWriteIndex (i + 1) (some true) S.dpb = k
    · obtain ⟨i, hi, rfl⟩ := hd
      have hn := hS.numbers
      unfold Setting.blocks lastSeqNum at hn
      refine n2 ⟨UInt32.ofNat (i + 1), _, ?_, hcon.data i _ (List.getElem?_eq_getElem hi), ?_⟩
      · intro hz
        have := congrArg UInt32.toNat hz
        rw [ofNat_toNat32 (by omega)] at this
        simp at this
      · have hps := (payloads_spec (rs := S.rs) hS.lengths hS.valid (cs := fileChunks S.version S.bytes) (by
          intro c hcm
          unfold fileChunks at hcm
          rw [← dataSize_eq] at hcm
          exact (mem_chunksOf _ c hcm).2.1)).2
        rw [hps _ (List.getElem_mem hi), dataSize_eq]
    · refine n3 fun b hb' => ?_
      rw [hcon.gaps k (by rw [Nat.add_mul] at hkg; omega) hm (fun i hi e => hd ⟨i, hi, e⟩)] at hb'
      exact (List.mem_replicate.1 hb').2

/-- **C65.** In particular from the encoding of a file, through whatever happens, to its decoding. -/
theorem C65_life (E : Encode.Env) (p : Encode.Param) (hE : E.Ok p) (hok : p.Ok) (inp : Encode.Input) (hn : Encode.NamesOk p inp)
    (dk : Disk) (rep : Encode.Report) (hrange : inp.file = none ∨ p.fromPos = none ∧ p.toPos = none) (hs : ∀ n, E.stop n = false)
    (henc : Encode.encodeFile E p inp = (dk, .ok rep)) (hme : p.metaEnabled = true) (hsup : p.hashType.supported = true)
    (ids : List MetaId) (g : File) (h : Steps ⟨E.rs, E.hash, p.version, p.uid, p.dpb, inp.bytes⟩ ids dk.file g)
    (D : Decode.Env) (hD : D.Calm) (hH : D.hash = E.hash) (q : Decode.Param) (hq : Decode.Whole q) (hr : Decode.DefaultRef q.ref)
    (hb : q.ref.burst ≠ none ∨ q.ref.guessBurstFrom = none ∧ ∀ d, p.dpb = some d → d.burst ≤ 1000) (old : File) :
    ∃ R, Decode.toFile D q g old = .ok (inp.bytes, R) ∧ (R.recorded ≠ none → R.computed = R.recorded) ∧
      (MetaId.hsh ∉ ids → R.recorded = some (E.hash.bytes p.hashType inp.bytes)) := by
  obtain ⟨hS, ms, hk, hh⟩ := encoded_kept E p hE hok inp hn dk rep hrange hs henc hme hsup
  obtain ⟨R, r1, -, r3, r4⟩ := C65_decode _ hS ms dk.file g hk ids h D hD hH q hq hr hb old
  exact ⟨R, r1, r3, fun hid => (r4 hid).trans hh⟩

/-! ### Instances -/

/-- 1000 bytes in a container with 10 data and 2 parity blocks in a set and burst level 3. -/
noncomputable def demo : Setting := ⟨RsWitness.codec, Decode.calmEnv.hash, .v17, Repair.demoOwner, some Repair.demoDpb, List.replicate 1000 7⟩

/-- `update --fnm b --hash sha1`. -/
def rename : Update.Cli := ⟨some "b", none, some .sha1, false, false, false, false, some 3⟩

/-- `update --no-fnm`. -/
def forget : Update.Cli := ⟨none, none, none, true, false, false, false, some 3⟩

theorem demo_burst : Decode.BurstKnown (some 3) demo.dpb demo.blocks := by
  intro d hd
  cases hd
  exact .inl rfl

theorem rename_ok : Request demo rename := by
  refine ⟨⟨by simp [rename], by simp [rename], by simp [rename]⟩, ?_, by simp [rename], ?_, demo_burst⟩
  · intro s hs
    cases hs
    exact ⟨by decide +kernel, by decide +kernel⟩
  · intro t ht
    cases ht
    refine ⟨⟨_, C07_hash_names .sha1 rfl⟩, fun h => ?_⟩
    have := congrArg List.length h
    rw [show demo.bytes = List.replicate 1000 7 from rfl, List.length_replicate] at this
    simp at this

theorem forget_ok : Request demo forget :=
  ⟨⟨by simp [forget], by simp [forget], by simp [forget]⟩, by simp [forget], by simp [forget], by simp [forget], demo_burst⟩

theorem demo_start : demo.Ok ∧ ∃ dk rep ms, Encode.encodeFile (Encode.demoEnv fun _ => false) (Encode.demoParam .v17 (some ⟨10, 2, 3⟩) none)
      ⟨List.replicate 1000 7, some ("a.txt", some 5)⟩ = (dk, .ok rep) ∧ Kept demo ms dk.file := by
  obtain ⟨dk, rep, henc, h⟩ := Repair.demo_encoded
  obtain ⟨mb, hc, hrec⟩ := h.container
  obtain ⟨ms, ⟨mp, hmb, rfl⟩, h2, h3, h4, h5, h6⟩ := hrec rfl
  rw [hmb.bytes, blockBytes_drop] at h6
  have hb := hmb.bytes
  subst hb
  refine ⟨⟨RsWitness.codec_laws, ?_, rfl, h.numbers⟩, dk, rep, _, henc, ⟨mp, hc, rfl, h6⟩, h2, h4, h5, ?_⟩
  · intro d hd
    cases hd
    decide
  · intro x hx
    rw [h3] at hx
    exact ⟨.sha256, rfl, (Option.some.inj hx).symm⟩

/-- The container is given another name and hash, loses two blocks, is repaired, and then an attempt to remove the name is interrupted
and repeated. -/
theorem demo_steps {ms : List Metadata} {f : File} (hk : Kept demo ms f) : ∃ g1 : File,
    g1 ≠ (Update.updateFile Update.calmEnv (rename.param demo.hash) f).1.file ∧
    ∃ g, Steps demo ([.fnm, .hsh] ++ ([] ++ ([.fnm] ++ []))) f g := by
  obtain ⟨hS, -⟩ := demo_start
  obtain ⟨ms1, hk1, -⟩ := step hS hk (.update Update.calmEnv Update.calm rfl rename rename_ok)
  obtain ⟨mp, hs, -⟩ := hk1.sound hS rfl
  obtain ⟨g1, d1, d2, d3, d4⟩ := Repair.demo_damage hs
  refine ⟨g1, d1, _, .cons (.update Update.calmEnv Update.calm rfl rename rename_ok) (.cons (.repair Repair.demoEnv Repair.demo_calm rfl
    Repair.demoDpb rfl (by decide) (g := g1) ⟨d2, ⟨[(0, 2)], by decide, few (by decide), d3⟩, d4⟩)
    (.cons (.updateAgain Update.hastyEnv Update.calmEnv ⟨fun k hk => by simp [Update.hastyEnv] at hk, fun k hk => by simp [Update.hastyEnv] at hk⟩
      Nat.zero_lt_two Update.calm rfl rfl forget forget_ok) .nil))⟩

example : ∃ ms f g, Kept demo ms f ∧ Steps demo [.fnm, .hsh, .fnm] f g ∧
    ∃ ms', Kept demo ms' g ∧ ms'.filter (fun m => m.id = .fdt) = ms.filter (fun m => m.id = .fdt) := by
  obtain ⟨hS, dk, rep, ms, -, hk⟩ := demo_start
  obtain ⟨-, -, g, hg⟩ := demo_steps hk
  obtain ⟨ms', h1, h2⟩ := C65_history demo hS ms dk.file g hk _ hg
  exact ⟨ms, dk.file, g, hk, hg, ms', h1, h2 .fdt (by decide)⟩

example : ∃ f g R, Steps demo [.fnm, .hsh, .fnm] f g ∧ Decode.toFile Decode.calmEnv Decode.plainParam g [] = .ok (List.replicate 1000 7, R) ∧
    ∃ r st, Check.checkFile ⟨demo.hash, 2, fun _ => false, fun _ => false, fun _ => false⟩ ⟨Decode.plainParam.ref, false, false, .noHash⟩ g = .ok r ∧
      r.blocks = some st ∧ st.failed = 0 := by
  obtain ⟨hS, dk, rep, ms, -, hk⟩ := demo_start
  obtain ⟨-, -, g, hg⟩ := demo_steps hk
  obtain ⟨R, r1, -⟩ := C65_decode demo hS ms dk.file g hk _ hg Decode.calmEnv Decode.calm rfl Decode.plainParam Decode.plain_whole Decode.plain_ref
    (.inr ⟨rfl, fun d hd => by cases hd; decide⟩) []
  exact ⟨dk.file, g, R, hg, r1, C65_check demo hS ms dk.file g hk _ hg _ (fun _ => rfl) _ Decode.plain_ref rfl rfl rfl⟩

/-- The container is lost but for the first 20 places in one copy and those from the 18th on in another one; it is put together with `sort`, loses two
blocks, and is repaired without the level being stated; then only 10 of the 12 blocks are left in two copies, which is enough for `sort` and `repair`. -/
theorem demo_merged {ms : List Metadata} {f : File} (hk : Kept demo ms f) : ∃ g1, g1 ≠ f ∧ Steps demo ([] ++ ([] ++ ([] ++ []))) f f ∧
    repaired Repair.demoEnv none g1 = f := by
  obtain ⟨hS, -⟩ := demo_start
  obtain ⟨mp, hs, -⟩ := hk.sound hS rfl
  obtain ⟨c1, c2, c3, c4⟩ := Copies.demo_copies hs (a := 20) (b := 18) (by decide) (by decide)
  obtain ⟨e1, e2, e3, -⟩ := Copies.demo_copies hs (a := 12) (b := 18) (by decide) (by decide)
  obtain ⟨g1, d1, d2, d3, d4⟩ := Repair.demo_damage hs
  have hdam : Damaged demo Repair.demoDpb f g1 := ⟨d2, ⟨[(0, 2)], by decide, few (by decide), d3⟩, d4⟩
  have hne : demo.bytes ≠ [] := by
    intro h
    have := congrArg List.length h
    rw [show demo.bytes = List.replicate 1000 7 from rfl, List.length_replicate] at this
    simp at this
  have hrep := repair_guessed hS hk (R := Repair.demoEnv) Repair.demo_calm rfl (d := Repair.demoDpb) rfl (by decide) (by decide) (by decide) hne hdam
  have hall : ∀ s, 1 ≤ s → s ≤ demo.blocks → CopiesSpec.BlockSurvives demo.version demo.dpb f [Copies.front f 20, Copies.back f 18] s := by
    intro s h1 h2
    have h2 : s ≤ 12 := by rw [← c4]; exact h2
    exact c3 s h1 h2 (by omega)
  have hsrc : Copies.Source demo.rs demo.version demo.uid demo.dpb demo.bytes mp f := .of_sound hS.laws hs
  obtain ⟨dk, st, o, h1, h2⟩ := Copies.C69_sort hsrc _ c1 c2 hall Sort.calmEnv Sort.calm Sort.burstParam
    ⟨rfl, rfl, rfl, rfl⟩ ⟨rfl, rfl, rfl, .inl rfl⟩ (by intro x hx; cases hx; rfl) []
  have m1 := Step.merge _ c1 c2 hall Sort.calmEnv Sort.calm Sort.burstParam ⟨rfl, rfl, rfl, rfl⟩ ⟨rfl, rfl, rfl, .inl rfl⟩
    (by intro x hx; cases hx; rfl) [] dk st o h1
  rw [h2] at m1
  have m2 := Step.repairGuessed (S := demo) Repair.demoEnv Repair.demo_calm rfl Repair.demoDpb rfl (by decide) (by decide) (by decide) hne hdam
  rw [hrep] at m2
  have henough := Copies.demo_enough hs
  obtain ⟨dk', st', o', dk2, st2, out, r1, r2, -, r4, -⟩ := Copies.C69_restore Repair.demo_laws Repair.demo_calm (d := Repair.demoDpb) hs _ e1 e2 henough
    Sort.calmEnv Sort.calm Sort.burstParam ⟨rfl, rfl, rfl, rfl⟩ ⟨rfl, rfl, rfl, .inl rfl⟩ rfl Decode.calmEnv Decode.calm Decode.plainParam Decode.plain_whole
    Decode.plain_ref (.inr ⟨rfl, by decide⟩) [] []
  have m3 := Step.mergeRepair (S := demo) Repair.demoDpb rfl _ e1 e2 henough Sort.calmEnv Sort.calm Sort.burstParam ⟨rfl, rfl, rfl, rfl⟩
    ⟨rfl, rfl, rfl, .inl rfl⟩ rfl [] dk' st' o' r1 Repair.demoEnv Repair.demo_calm rfl
  have e : repaired Repair.demoEnv (some Repair.demoDpb.burst) dk'.file = f := by
    unfold repaired
    rw [r2]
    exact r4
  rw [e] at m3
  exact ⟨g1, d1, .cons m1 (.cons m2 (.cons m3 .nil)), hrep⟩

example : ∃ f R, Steps demo [] f f ∧ Decode.toFile Decode.calmEnv Decode.plainParam f [] = .ok (List.replicate 1000 7, R) := by
  obtain ⟨hS, dk, rep, ms, -, hk⟩ := demo_start
  obtain ⟨-, -, hg, -⟩ := demo_merged hk
  obtain ⟨R, r1, -⟩ := C65_decode demo hS ms dk.file _ hk _ hg Decode.calmEnv Decode.calm rfl Decode.plainParam Decode.plain_whole Decode.plain_ref
    (.inr ⟨rfl, fun d hd => by cases hd; decide⟩) []
  exact ⟨dk.file, R, hg, r1⟩

end Verif.History
