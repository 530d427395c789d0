import Verif.Lemmas.Update
import Verif.Lemmas.RepairFile
import Verif.Lemmas.RepairWhole
import Verif.Props.Metadata
/-!
# What `update` does, place by place
-/

namespace Verif.Update
open Format UpdateSpec RepairSpec ScanSpec Scan Layout Repair LayoutSpec

/-- Reading a block of the reference version from the front of a longer buffer. -/
theorem syncFrom_front {ref b b' : Block} {bytes rest : List Byte} (hl : bytes.length = blockLen ref.header.version) :
    b.syncFrom (bytes ++ rest) (some (sameVerUid ref)) none = (b', none) ↔
      ∃ seq payload, IsBlock bytes ref.header.version ref.header.uid seq payload ∧
        b' = blockOf ref.header.version ref.header.uid seq payload := by
  rw [Block.syncFrom_none, Block.read?_iff]
  constructor
  · rintro ⟨v', uid', seq, payload, rest', h1, -, rfl, h4⟩
    obtain ⟨e1, e2⟩ := sameVerUid_iff.1 (h4 _ rfl)
    simp only [blockOf] at e1 e2
    subst e1 e2
    rw [List.take_left' hl] at h1
    exact ⟨_, _, h1, rfl⟩
  · rintro ⟨seq, payload, h1, rfl⟩
    refine ⟨_, _, seq, payload, rest, by rw [List.take_left' hl]; exact h1, by rw [List.take_left' hl], rfl, ?_⟩
    intro p hp
    simp only [Option.some.injEq] at hp
    subst hp
    exact sameVerUid_iff.2 ⟨rfl, rfl⟩

/-- The fields of the metadata block at place `k`, if there is a valid one. -/
def fieldsAt (ref : Block) (f : File) (k : Nat) : Option (List Metadata) :=
  (blockAt ref f (k * blockLen ref.header.version)).bind Block.metas

theorem fieldsAt_iff {ref : Block} {f : File} {k : Nat} {ms : List Metadata} :
    fieldsAt ref f k = some ms ↔ ∃ payload, IsBlock (piece ref.header.version f k) ref.header.version ref.header.uid 0 payload ∧
      ms = metasFromBytes payload := by
  unfold fieldsAt
  rw [Option.bind_eq_some_iff]
  constructor
  · rintro ⟨b, h1, h2⟩
    obtain ⟨seq, payload, h3, rfl⟩ := blockAt_iff.1 h1
    unfold Block.metas blockOf at h2
    by_cases h0 : seq = 0
    · subst h0
      simp only [if_true, Option.some.injEq] at h2
      exact ⟨payload, h3, h2.symm⟩
    · simp [h0] at h2
  · rintro ⟨payload, h1, rfl⟩
    exact ⟨_, blockAt_iff.2 ⟨0, payload, h1, rfl⟩, by simp [Block.metas, blockOf]⟩

theorem fieldsAt_congr {ref : Block} {f g : File} {k : Nat} (h : piece ref.header.version f k = piece ref.header.version g k) :
    fieldsAt ref f k = fieldsAt ref g k := by
  unfold fieldsAt blockAt
  unfold piece File.readAt at h
  rw [h]

theorem fieldsAt_full {ref : Block} {f : File} {k : Nat} {ms : List Metadata} (h : fieldsAt ref f k = some ms) :
    (piece ref.header.version f k).length = blockLen ref.header.version := by
  obtain ⟨p, hp, -⟩ := fieldsAt_iff.1 h
  exact isBlock_length hp

/-- There is room for the changed fields (or there is nothing to change) at place `k`. -/
def fits (ref : Block) (upd : List Metadata) (rem : List MetaId) (f : File) (k : Nat) : Bool :=
  match fieldsAt ref f k with
  | none => true
  | some ms => decide (metaSpace (changed upd rem ms) ≤ blockLen ref.header.version - 16)

/-- There is a whole block at place `k`. -/
def isFull (ref : Block) (f : File) (k : Nat) : Bool := decide (blockLen ref.header.version ≤ (piece ref.header.version f k).length)

/-- The places treated, and whether the loop ends with an error. -/
def course (full fit : Nat → Bool) (stop : Nat → Bool) : Nat → List Nat → List Nat × Bool
  | _, [] => ([], false)
  | i, k :: ks =>
    if stop i || !full k then ([], false)
    else if !fit k then ([], true)
    else (k :: (course full fit stop (i + 1) ks).1, (course full fit stop (i + 1) ks).2)

/-- What is written at place `k`. -/
def newAt (ref : Block) (upd : List Metadata) (rem : List MetaId) (f : File) (k : Nat) : Option (List Byte) :=
  (fieldsAt ref f k).map fun ms =>
    blockBytes ref.header.version ref.header.uid.bytes 0 ((metasToBytes (changed upd rem ms) (blockLen ref.header.version - 16)).getD [])

/-- The writes. -/
def opsAt (ref : Block) (upd : List Metadata) (rem : List MetaId) (f : File) (ks : List Nat) : List (Nat × List Byte) :=
  ks.filterMap fun k => (newAt ref upd rem f k).map fun b => (k * blockLen ref.header.version, b)

theorem newAt_length {ref : Block} {upd : List Metadata} {rem : List MetaId} {f : File} {k : Nat} {b : List Byte}
    (hf : fits ref upd rem f k = true) (h : newAt ref upd rem f k = some b) : b.length = blockLen ref.header.version := by
  unfold newAt at h
  unfold fits at hf
  cases hm : fieldsAt ref f k with
  | none => rw [hm] at h; simp at h
  | some ms =>
    rw [hm] at h hf
    simp only [decide_eq_true_eq] at hf
    simp only [Option.map_some, Option.some.injEq] at h
    obtain ⟨bs, h1, h2, -⟩ := (C05_metadata_write (changed upd rem ms) (blockLen ref.header.version - 16)).2 hf
    rw [h1] at h
    subst h
    rw [Option.getD_some, blockBytes_length, h2, blockLen_eq]
    have := size_ge ref.header.version
    omega

/-- A write over a whole block of the file. -/
theorem over {v : Version} {g : File} {j : Nat} {b : List Byte} (hg : (piece v g j).length = blockLen v) (hb : b.length = blockLen v) :
    (g.writeAt (j * blockLen v) b).length = g.length ∧ piece v (g.writeAt (j * blockLen v) b) j = b ∧
    ∀ i, i < j * blockLen v ∨ (j + 1) * blockLen v ≤ i → (g.writeAt (j * blockLen v) b)[i]? = g[i]? := by
  have hu := blockLen_pos v
  have hne : b ≠ [] := by rintro rfl; simp at hb; omega
  unfold piece at hg
  rw [File.readAt_length] at hg
  refine ⟨by rw [File.writeAt_length _ _ _ hne]; omega, piece_written hb, ?_⟩
  intro i hi
  rw [Nat.succ_mul] at hi
  rw [File.getElem?_writeAt _ _ _ hne]
  split_ifs <;> first | rfl | omega

theorem piece_eq_of {v : Version} {g h : File} {j k : Nat} (hjk : k ≠ j)
    (H : ∀ i, i < j * blockLen v ∨ (j + 1) * blockLen v ≤ i → g[i]? = h[i]?) : piece v g k = piece v h k := by
  apply List.ext_getElem?
  intro i
  unfold piece
  rw [File.getElem?_readAt, File.getElem?_readAt]
  split
  · apply H
    rcases Nat.lt_or_gt_of_ne hjk with h | h
    · have := Nat.mul_le_mul_right (blockLen v) (show k + 1 ≤ j from h)
      rw [Nat.succ_mul] at this; omega
    · have := Nat.mul_le_mul_right (blockLen v) (show j + 1 ≤ k from h)
      omega
  · rfl

theorem loop_spec (ref : Block) (upd : List Metadata) (rem : List MetaId) (w : Bool) (stop : Nat → Bool) (f : File) :
    ∀ (ks : List Nat) (i : Nat) (s : St), ks.Nodup → s.buffer.length = 4096 →
      (∀ k ∈ ks, piece ref.header.version s.disk.file k = piece ref.header.version f k) →
      ∃ buffer block, loop ref upd rem w stop i (ks.map (· * ref.header.version.blockSize)) s =
        (⟨if w then s.disk.writes (opsAt ref upd rem f (course (isFull ref f) (fits ref upd rem f) stop i ks).1) else s.disk, buffer, block,
          ⟨s.stats.updated + (course (isFull ref f) (fits ref upd rem f) stop i ks).1.countP fun k => (fieldsAt ref f k).isSome,
           s.stats.failed + (course (isFull ref f) (fits ref upd rem f) stop i ks).1.countP fun k => (fieldsAt ref f k).isNone⟩⟩,
          if (course (isFull ref f) (fits ref upd rem f) stop i ks).2 then some .tooMuchMetadata else none) := by
  have h16 := size_ge ref.header.version
  have hbs : ref.header.version.blockSize ≤ 4096 := by cases ref.header.version <;> decide
  have hstop : ∀ s : St, (⟨if w then s.disk.writes (opsAt ref upd rem f []) else s.disk, s.buffer, s.block,
      ⟨s.stats.updated + 0, s.stats.failed + 0⟩⟩ : St) = s := by
    intro s
    have : s.disk.writes (opsAt ref upd rem f []) = s.disk := by simp [opsAt, Disk.writes]
    rw [this, ite_self]
    rfl
  intro ks
  induction ks with
  | nil =>
    intro i s _ _ _
    refine ⟨s.buffer, s.block, ?_⟩
    simp only [course, List.countP_nil, hstop]
    rfl
  | cons k ks ih =>
    intro i s hnd hl hp
    rw [List.nodup_cons] at hnd
    have hpk := hp k List.mem_cons_self
    have hrd : s.disk.file.readAt (k * ref.header.version.blockSize) ref.header.version.blockSize = piece ref.header.version f k := by
      rw [← hpk]; unfold piece; rw [blockLen_eq]
    have hple := piece_length_le ref.header.version f k
    by_cases hs : stop i = true
    · refine ⟨s.buffer, s.block, ?_⟩
      have hc : course (isFull ref f) (fits ref upd rem f) stop i (k :: ks) = ([], false) := by simp [course, hs]
      rw [hc]
      simp only [List.countP_nil, hstop, List.map_cons]
      unfold loop
      rw [if_pos hs]
      rfl
    by_cases hfull : (piece ref.header.version f k).length < ref.header.version.blockSize
    · refine ⟨s.buffer, s.block, ?_⟩
      have hc : course (isFull ref f) (fits ref upd rem f) stop i (k :: ks) = ([], false) := by
        have : isFull ref f k = false := by unfold isFull; rw [blockLen_eq]; simpa using hfull
        simp [course, this]
      rw [hc]
      simp only [List.countP_nil, hstop, List.map_cons]
      unfold loop
      rw [if_neg hs]
      simp only [hrd]
      rw [if_pos hfull]
      rfl
    have hF : isFull ref f k = true := by unfold isFull; rw [blockLen_eq]; simpa using hfull
    have hlen : (piece ref.header.version f k).length = blockLen ref.header.version := by rw [blockLen_eq] at hple ⊢; omega
    have hbl : (piece ref.header.version f k ++ s.buffer.drop (piece ref.header.version f k).length).length = 4096 := by
      rw [List.length_append, List.length_drop]; rw [← blockLen_eq] at hbs; omega
    have hskip : ∀ b : Block, fieldsAt ref f k = none →
        ∃ buffer block, loop ref upd rem w stop (i + 1) (ks.map (· * ref.header.version.blockSize))
          { s with
            buffer := piece ref.header.version f k ++ s.buffer.drop (piece ref.header.version f k).length
            block := b
            stats := { s.stats with failed := s.stats.failed + 1 } } =
          (⟨if w then s.disk.writes (opsAt ref upd rem f (course (isFull ref f) (fits ref upd rem f) stop i (k :: ks)).1) else s.disk, buffer,
            block, ⟨s.stats.updated + (course (isFull ref f) (fits ref upd rem f) stop i (k :: ks)).1.countP fun k => (fieldsAt ref f k).isSome,
             s.stats.failed + (course (isFull ref f) (fits ref upd rem f) stop i (k :: ks)).1.countP fun k => (fieldsAt ref f k).isNone⟩⟩,
            if (course (isFull ref f) (fits ref upd rem f) stop i (k :: ks)).2 then some .tooMuchMetadata else none) := by
      intro b hnone
      have hc : course (isFull ref f) (fits ref upd rem f) stop i (k :: ks) =
          (k :: (course (isFull ref f) (fits ref upd rem f) stop (i + 1) ks).1,
            (course (isFull ref f) (fits ref upd rem f) stop (i + 1) ks).2) := by
        have : fits ref upd rem f k = true := by unfold fits; rw [hnone]
        simp [course, this, hs, hF]
      obtain ⟨buffer, block, e⟩ := ih (i + 1) { s with
            buffer := piece ref.header.version f k ++ s.buffer.drop (piece ref.header.version f k).length
            block := b
            stats := { s.stats with failed := s.stats.failed + 1 } } hnd.2 hbl fun k' hk' => hp k' (List.mem_cons_of_mem _ hk')
      refine ⟨buffer, block, ?_⟩
      rw [e, hc]
      have ho : opsAt ref upd rem f (k :: (course (isFull ref f) (fits ref upd rem f) stop (i + 1) ks).1) =
          opsAt ref upd rem f (course (isFull ref f) (fits ref upd rem f) stop (i + 1) ks).1 := by
        unfold opsAt newAt
        rw [List.filterMap_cons, hnone]
        rfl
      rw [ho]
      simp only [List.countP_cons, hnone, Option.isSome_none, Option.isNone_none, if_true, Bool.false_eq_true, if_false, Nat.add_zero,
        Nat.add_assoc, Nat.add_comm 1]
    rw [List.map_cons]
    unfold loop
    rw [if_neg hs]
    simp only [hrd]
    rw [if_neg hfull]
    rcases hsync : s.block.syncFrom (piece ref.header.version f k ++ s.buffer.drop (piece ref.header.version f k).length)
      (some (sameVerUid ref)) none with ⟨b, _ | e⟩
    · simp only
      obtain ⟨seq, payload, hb, rfl⟩ := (syncFrom_front hlen).1 hsync
      by_cases h0 : seq = 0
      · subst h0
        have hfa : fieldsAt ref f k = some (metasFromBytes payload) := fieldsAt_iff.2 ⟨payload, hb, rfl⟩
        have hd : (blockOf ref.header.version ref.header.uid 0 payload).data = .metadata (metasFromBytes payload) := by simp [blockOf]
        rw [if_neg (by simp [Block.blockType, blockOf])]
        rw [change_eq upd rem _ _ hd]
        simp only
        rw [Block.syncTo_meta _ _ (changed upd rem (metasFromBytes payload)) rfl rfl
          (by show ref.header.version.blockSize ≤ _; rw [hbl]; exact hbs)]
        have hsz : Block.size { blockOf ref.header.version ref.header.uid 0 payload with
            data := .metadata (changed upd rem (metasFromBytes payload)) } = ref.header.version.blockSize := rfl
        rw [hsz]
        by_cases hfit : metaSpace (changed upd rem (metasFromBytes payload)) ≤ ref.header.version.blockSize - 16
        · obtain ⟨bs, h1, h2, -⟩ := (C05_metadata_write (changed upd rem (metasFromBytes payload)) (ref.header.version.blockSize - 16)).2 hfit
          rw [h1]
          simp only
          have hfits : fits ref upd rem f k = true := by
            unfold fits; rw [hfa]; simp only [decide_eq_true_eq]; rw [blockLen_eq]; exact hfit
          have hc : course (isFull ref f) (fits ref upd rem f) stop i (k :: ks) =
              (k :: (course (isFull ref f) (fits ref upd rem f) stop (i + 1) ks).1,
                (course (isFull ref f) (fits ref upd rem f) stop (i + 1) ks).2) := by
            simp [course, hfits, hs, hF]
          have hnew : newAt ref upd rem f k = some (blockBytes ref.header.version ref.header.uid.bytes 0 bs) := by
            unfold newAt; rw [hfa, Option.map_some, blockLen_eq, h1, Option.getD_some]
          have hnl : (blockBytes ref.header.version ref.header.uid.bytes 0 bs).length = ref.header.version.blockSize := by
            rw [blockBytes_length, h2]; omega
          have htake : (blockBytes (blockOf ref.header.version ref.header.uid 0 payload).header.version
              (blockOf ref.header.version ref.header.uid 0 payload).header.uid.bytes 0 bs ++
              List.drop ref.header.version.blockSize (piece ref.header.version f k ++ s.buffer.drop (piece ref.header.version f k).length)).take
                ref.header.version.blockSize = blockBytes ref.header.version ref.header.uid.bytes 0 bs := List.take_left' hnl
          rw [htake]
          obtain ⟨buffer, block, e⟩ := ih (i + 1)
            { disk := if w then s.disk.writeAt (k * ref.header.version.blockSize) (blockBytes ref.header.version ref.header.uid.bytes 0 bs)
                else s.disk,
              buffer := blockBytes (blockOf ref.header.version ref.header.uid 0 payload).header.version
                (blockOf ref.header.version ref.header.uid 0 payload).header.uid.bytes 0 bs ++
                List.drop ref.header.version.blockSize (piece ref.header.version f k ++ s.buffer.drop (piece ref.header.version f k).length),
              block := Block.updateCrc { blockOf ref.header.version ref.header.uid 0 payload with
                data := .metadata (changed upd rem (metasFromBytes payload)) } 
                ((piece ref.header.version f k ++ s.buffer.drop (piece ref.header.version f k).length).take 16 ++ bs),
              stats := { s.stats with updated := s.stats.updated + 1 } } hnd.2
            (by
              have hh : (blockBytes (blockOf ref.header.version ref.header.uid 0 payload).header.version
                (blockOf ref.header.version ref.header.uid 0 payload).header.uid.bytes 0 bs).length = ref.header.version.blockSize := hnl
              simp only [List.length_append, List.length_drop, hh] at hbl ⊢
              omega)
            (by
              intro k' hk'
              have hne : k' ≠ k := by rintro rfl; exact hnd.1 hk'
              rw [← hp k' (List.mem_cons_of_mem _ hk')]
              cases w with
              | false => rfl
              | true =>
                simp only [if_true]
                rw [show (s.disk.writeAt _ _) = s.disk.writes [_] from rfl, Disk.file_writes, ← blockLen_eq]
                exact piece_eq_of hne (over (hpk ▸ hlen) (by rw [hnl, blockLen_eq])).2.2)
          refine ⟨buffer, block, ?_⟩
          rw [e, hc]
          have ho : opsAt ref upd rem f (k :: (course (isFull ref f) (fits ref upd rem f) stop (i + 1) ks).1) =
              (k * ref.header.version.blockSize, blockBytes ref.header.version ref.header.uid.bytes 0 bs) ::
              opsAt ref upd rem f (course (isFull ref f) (fits ref upd rem f) stop (i + 1) ks).1 := by
            unfold opsAt
            rw [List.filterMap_cons, hnew, Option.map_some, blockLen_eq]
          rw [ho]
          cases w <;> simp [hfa, Disk.writes, Disk.writeAt, Nat.add_assoc, Nat.add_comm 1]
        · rw [(C05_metadata_write _ _).1.2 (by omega)]
          simp only
          refine ⟨s.buffer, s.block, ?_⟩
          have hfits : fits ref upd rem f k = false := by
            unfold fits; rw [hfa]; simp only [decide_eq_false_iff_not]; rw [blockLen_eq]; exact hfit
          have hc : course (isFull ref f) (fits ref upd rem f) stop i (k :: ks) = ([], true) := by
            simp [course, hfits, hs, hF]
          rw [hc]
          simp only [List.countP_nil, hstop]
          rfl
      · have hnone : fieldsAt ref f k = none := by
          rw [Option.eq_none_iff_forall_ne_some]
          intro ms hms
          obtain ⟨p, hp1, -⟩ := fieldsAt_iff.1 hms
          exact h0 (isBlock_seq hb hp1).1
        rw [if_pos (by simp [Block.blockType, blockOf, h0])]
        exact hskip _ hnone
    · simp only
      refine hskip _ ?_
      rw [Option.eq_none_iff_forall_ne_some]
      intro ms hms
      obtain ⟨p, hp1, -⟩ := fieldsAt_iff.1 hms
      rw [(syncFrom_front hlen).2 ⟨0, p, hp1, rfl⟩] at hsync
      simp at hsync

/-- What the writes do to the file. -/
theorem written (ref : Block) (upd : List Metadata) (rem : List MetaId) (f : File) (ks : List Nat) (hnd : ks.Nodup)
    (hfit : ∀ k ∈ ks, fits ref upd rem f k = true) :
    (f.writes (opsAt ref upd rem f ks)).length = f.length ∧
    (∀ k ∈ ks, ∀ b, newAt ref upd rem f k = some b → piece ref.header.version (f.writes (opsAt ref upd rem f ks)) k = b) ∧
    (∀ i, (∀ k ∈ ks, fieldsAt ref f k ≠ none → i < k * blockLen ref.header.version ∨ (k + 1) * blockLen ref.header.version ≤ i) →
      (f.writes (opsAt ref upd rem f ks))[i]? = f[i]?) := by
  have key : ∀ (ks : List Nat) (g : File), ks.Nodup → (∀ k ∈ ks, fits ref upd rem f k = true) →
      (∀ k ∈ ks, piece ref.header.version g k = piece ref.header.version f k) →
      (g.writes (opsAt ref upd rem f ks)).length = g.length ∧
      (∀ k ∈ ks, ∀ b, newAt ref upd rem f k = some b → piece ref.header.version (g.writes (opsAt ref upd rem f ks)) k = b) ∧
      (∀ i, (∀ k ∈ ks, fieldsAt ref f k ≠ none → i < k * blockLen ref.header.version ∨ (k + 1) * blockLen ref.header.version ≤ i) →
        (g.writes (opsAt ref upd rem f ks))[i]? = g[i]?) := by
    intro ks
    induction ks with
    | nil => intro g _ _ _; simp [opsAt, File.writes]
    | cons k ks ih =>
      intro g hnd hfit hp
      rw [List.nodup_cons] at hnd
      cases hn : newAt ref upd rem f k with
      | none =>
        have ho : opsAt ref upd rem f (k :: ks) = opsAt ref upd rem f ks := by unfold opsAt; rw [List.filterMap_cons, hn]; rfl
        rw [ho]
        obtain ⟨h1, h2, h3⟩ := ih g hnd.2 (fun k' hk' => hfit k' (List.mem_cons_of_mem _ hk')) fun k' hk' => hp k' (List.mem_cons_of_mem _ hk')
        refine ⟨h1, ?_, fun i hi => h3 i fun k' hk' => hi k' (List.mem_cons_of_mem _ hk')⟩
        intro k' hk' b hb
        rcases List.mem_cons.1 hk' with rfl | hk'
        · rw [hn] at hb; simp at hb
        · exact h2 k' hk' b hb
      | some c =>
        have ho : opsAt ref upd rem f (k :: ks) = (k * blockLen ref.header.version, c) :: opsAt ref upd rem f ks := by
          unfold opsAt; rw [List.filterMap_cons, hn]; rfl
        have hcl := newAt_length (hfit k List.mem_cons_self) hn
        have hfa : ∃ ms, fieldsAt ref f k = some ms := by
          unfold newAt at hn
          cases hm : fieldsAt ref f k with
          | none => rw [hm] at hn; simp at hn
          | some ms => exact ⟨ms, rfl⟩
        obtain ⟨ms, hms⟩ := hfa
        have hgl : (piece ref.header.version g k).length = blockLen ref.header.version := by
          rw [hp k List.mem_cons_self]; exact fieldsAt_full hms
        obtain ⟨o1, o2, o3⟩ := over hgl hcl
        have hw : g.writes (opsAt ref upd rem f (k :: ks)) =
            (g.writeAt (k * blockLen ref.header.version) c).writes (opsAt ref upd rem f ks) := by rw [ho]; rfl
        rw [hw]
        obtain ⟨h1, h2, h3⟩ := ih (g.writeAt (k * blockLen ref.header.version) c) hnd.2
          (fun k' hk' => hfit k' (List.mem_cons_of_mem _ hk')) (by
            intro k' hk'
            rw [← hp k' (List.mem_cons_of_mem _ hk')]
            exact piece_eq_of (by rintro rfl; exact hnd.1 hk') o3)
        refine ⟨by rw [h1, o1], ?_, ?_⟩
        · intro k' hk' b hb
          rcases List.mem_cons.1 hk' with rfl | hk'
          · rw [hn] at hb
            simp only [Option.some.injEq] at hb
            subst hb
            refine Eq.trans ?_ o2
            apply List.ext_getElem?
            intro i
            unfold piece
            rw [File.getElem?_readAt, File.getElem?_readAt]
            split
            · apply h3
              intro k'' hk'' _
              have hne : k'' ≠ k' := by rintro rfl; exact hnd.1 hk''
              rcases Nat.lt_or_gt_of_ne hne with h | h
              · have := Nat.mul_le_mul_right (blockLen ref.header.version) (show k'' + 1 ≤ k' from h)
                omega
              · have := Nat.mul_le_mul_right (blockLen ref.header.version) (show k' + 1 ≤ k'' from h)
                rw [Nat.succ_mul] at this; omega
            · rfl
          · exact h2 k' hk' b hb
        · intro i hi
          rw [h3 i fun k' hk' => hi k' (List.mem_cons_of_mem _ hk')]
          exact o3 i (hi k List.mem_cons_self (by rw [hms]; simp))
  exact key ks f hnd hfit fun _ _ => rfl

/-! ### The course of the loop -/

theorem course_prefix (full fit : Nat → Bool) (stop : Nat → Bool) (i : Nat) (ks : List Nat) : (course full fit stop i ks).1 <+: ks := by
  induction ks generalizing i with
  | nil => simp [course]
  | cons k ks ih =>
    unfold course
    split
    · exact List.nil_prefix
    · split
      · exact List.nil_prefix
      · exact (List.cons_prefix_cons).2 ⟨rfl, ih _⟩

theorem course_fit {full fit : Nat → Bool} {stop : Nat → Bool} {i : Nat} {ks : List Nat} :
    ∀ k ∈ (course full fit stop i ks).1, fit k = true ∧ full k = true := by
  induction ks generalizing i with
  | nil => simp [course]
  | cons k ks ih =>
    unfold course
    split
    · simp
    · split
      · simp
      · rename_i h1 h2
        intro k' hk'
        rcases List.mem_cons.1 hk' with rfl | hk'
        · simp at h1 h2; exact ⟨h2, h1.2⟩
        · exact ih k' hk'

/-- With an uninterrupted test run that found no problem, the real run has none. -/
theorem course_ok {full fit : Nat → Bool} {stop stop' : Nat → Bool} (hs : ∀ i, stop i = false) {i j : Nat} {ks : List Nat}
    (h : (course full fit stop i ks).2 = false) : (course full fit stop' j ks).2 = false := by
  induction ks generalizing i j with
  | nil => rfl
  | cons k ks ih =>
    unfold course at h ⊢
    rw [hs i] at h
    simp only [Bool.false_or, Bool.not_eq_true'] at h
    split
    · rfl
    · rename_i h1
      simp only [Bool.or_eq_true, Bool.not_eq_true', not_or, Bool.not_eq_false] at h1
      rw [if_neg (by simp [h1.2])] at h
      cases hf : fit k with
      | true =>
        simp only [hf, Bool.true_eq_false, if_false] at h
        simp only [Bool.not_true, Bool.false_eq_true, if_false]
        exact ih h
      | false => simp [hf] at h

/-- An uninterrupted run without problem treats all places before the end of the file. -/
theorem course_all {full fit : Nat → Bool} {stop : Nat → Bool} (hs : ∀ i, stop i = false) {i : Nat} {ks : List Nat}
    (hmono : ks.Pairwise fun a b => full b = true → full a = true)
    (h : (course full fit stop i ks).2 = false) : ∀ k ∈ ks, full k = true → k ∈ (course full fit stop i ks).1 := by
  induction ks generalizing i with
  | nil => simp
  | cons k ks ih =>
    intro k' hk' hf
    rw [List.pairwise_cons] at hmono
    have hk : full k = true := by
      rcases List.mem_cons.1 hk' with rfl | hk'
      · exact hf
      · exact hmono.1 k' hk' hf
    unfold course at h ⊢
    rw [hs i] at h ⊢
    simp only [Bool.false_or, hk, Bool.not_true, Bool.false_eq_true, if_false] at h ⊢
    cases hft : fit k with
    | false => simp [hft] at h
    | true =>
      simp only [hft, Bool.not_true, Bool.false_eq_true, if_false] at h ⊢
      rcases List.mem_cons.1 hk' with rfl | hk'
      · exact List.mem_cons_self
      · exact List.mem_cons_of_mem _ (ih hmono.2 h k' hk' hf)

theorem course_stopped {full fit : Nat → Bool} {stop : Nat → Bool} {i : Nat} (hs : stop i = true) (ks : List Nat) :
    course full fit stop i ks = ([], false) := by
  cases ks with
  | nil => rfl
  | cons k ks => simp [course, hs]

/-- Only what happens up to the last check of the flag matters. -/
theorem course_congr {full fit fit' : Nat → Bool} {stop : Nat → Bool} {i : Nat} {ks : List Nat} (h : ∀ k ∈ ks, fit k = fit' k) :
    course full fit stop i ks = course full fit' stop i ks := by
  induction ks generalizing i with
  | nil => rfl
  | cons k ks ih =>
    unfold course
    rw [h k List.mem_cons_self, ih fun k' hk' => h k' (List.mem_cons_of_mem _ hk')]

theorem metaCopies_sorted (dpb : Option Dpb) : (metaCopies (some true) dpb).Pairwise (· < ·) := by
  cases dpb with
  | none => simp [metaCopies]
  | some d =>
    unfold metaCopies
    rw [List.pairwise_map]
    refine List.pairwise_lt_range.imp ?_
    intro a b hab
    exact Nat.mul_lt_mul_of_pos_right hab (by omega)

theorem isFull_mono (ref : Block) (f : File) {a b : Nat} (hab : a < b) (h : isFull ref f b = true) : isFull ref f a = true := by
  unfold isFull piece at *
  have hu := blockLen_pos ref.header.version
  simp only [decide_eq_true_eq, File.readAt_length] at *
  have := Nat.mul_le_mul_right (blockLen ref.header.version) (Nat.le_of_lt hab)
  omega

/-- `update_metadata_blocks`. -/
theorem updateBlocks_spec (ref : Block) (dpb : Option Dpb) (upd : List Metadata) (rem : List MetaId) (w : Bool) (stop : Nat → Bool) (d : Disk) :
    updateBlocks ref dpb upd rem w stop d =
      (if w then d.writes (opsAt ref upd rem d.file
          (course (isFull ref d.file) (fits ref upd rem d.file) stop 0 (metaCopies (some true) dpb)).1) else d,
        if (course (isFull ref d.file) (fits ref upd rem d.file) stop 0 (metaCopies (some true) dpb)).2 then .error .tooMuchMetadata
        else .ok ⟨(course (isFull ref d.file) (fits ref upd rem d.file) stop 0 (metaCopies (some true) dpb)).1.countP
            fun k => (fieldsAt ref d.file k).isSome,
          (course (isFull ref d.file) (fits ref upd rem d.file) stop 0 (metaCopies (some true) dpb)).1.countP
            fun k => (fieldsAt ref d.file k).isNone⟩) := by
  unfold updateBlocks
  rw [metaAllPos_eq, metaAllIndices_eq]
  obtain ⟨buffer, block, e⟩ := loop_spec ref upd rem w stop d.file (metaCopies (some true) dpb) 0
    ⟨d, List.replicate largestBlockSize 0, Block.dummy, ⟨0, 0⟩⟩ ((metaCopies_sorted dpb).imp Nat.ne_of_lt)
    (by show (List.replicate largestBlockSize 0).length = 4096; rw [List.length_replicate]; rfl) fun _ _ => rfl
  rw [e]
  simp only [Nat.zero_add]
  cases (course (isFull ref d.file) (fits ref upd rem d.file) stop 0 (metaCopies (some true) dpb)).2 <;> rfl

end Verif.Update
