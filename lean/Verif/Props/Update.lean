import Verif.Lemmas.UpdateFields
import Verif.Lemmas.ContainerRef
import Verif.Props.ContentHash
/-!
# Properties of `update`: C28, C29 (and C27 for `update`)
-/

namespace Verif.Update
open Format UpdateSpec RepairSpec ScanSpec Scan Layout Repair LayoutSpec ContainerSpec

/-! ### C29: the fields -/

/-- **C29.** Setting the fields `upd` and then removing the fields with ids in `rem` of a metadata block never fails and gives exactly the
fields described by `changed`: existing fields are replaced where they are, new ones appended in the order of the requests, the last
request for an id wins. -/
theorem C29_changed (upd : List Metadata) (rem : List MetaId) (b : Block) (ms : List Metadata) (h : b.data = .metadata ms) :
    change upd rem b = .ok { b with data := .metadata (changed upd rem ms) } := change_eq upd rem b ms h

/-- **C29.** In terms of what can be read afterwards: a requested field that is not removed has the value last asked for; removed ids are
gone; the fields that are not asked for keep value and order; the ids are the old ones in the old order, then the new ones. -/
theorem C29_update_remove (upd : List Metadata) (rem : List MetaId) (b b' : Block) (ms ms' : List Metadata) (h : b.data = .metadata ms)
    (h' : change upd rem b = .ok b') (hms : b'.data = .metadata ms') :
    (∀ id ∉ rem, ∀ m, lastFor upd id = some m → getMeta ms' id = some m) ∧
    (∀ m ∈ ms', m.id ∉ rem) ∧
    ms'.filter (fun m => m.id ∉ upd.map (·.id)) = ms.filter (fun m => m.id ∉ upd.map (·.id) ∧ m.id ∉ rem) ∧
    ms'.map (·.id) = (ms.map (·.id) ++ firstOccs ((upd.map (·.id)).filter (· ∉ ms.map (·.id)))).filter (· ∉ rem) ∧
    b'.header = b.header := by
  rw [change_eq upd rem b ms h] at h'
  simp only [Except.ok.injEq] at h'
  subst h'
  simp only [BlockData.metadata.injEq] at hms
  subst hms
  exact ⟨fun id hid m hm => changed_get hm hid, fun m hm => (changed_mem hm).2, changed_others upd rem ms, changed_ids upd rem ms, rfl⟩

/-- **C29.** A data block is refused (and `update` does not try). -/
theorem C29_data_block (upd : List Metadata) (rem : List MetaId) (b : Block) (h : b.data = .data) :
    change upd rem b = .error .incorrectBlockType := by
  unfold change
  cases upd with
  | nil => simp [Block.updateMetas, Block.removeMetas, h]
  | cons m upd => simp [Block.updateMetas, Block.updateMeta, h]

/-- Replacing, adding and removing, with a field asked for twice. -/
example : changed [.snm "b", .fnm "new", .snm "c"] [.fdt] [.fnm "a", .fsz 3, .fdt 5, .fnm "dup"] =
    [.fnm "new", .fsz 3, .fnm "dup", .snm "c"] := by decide +kernel

example : ∃ b', change [.snm "b", .fnm "new", .snm "c"] [.fdt] (Block.mk Block.dummy.header (.metadata [.fnm "a", .fsz 3, .fdt 5])) =
    .ok b' := ⟨_, C29_changed _ _ _ _ rfl⟩

/-! ### C28: the container -/

/-- The flag that is set when the user interrupts the program stays set. -/
structure Env.Sticky (E : Env) : Prop where
  test : ∀ k, E.stopTest k = true → E.stopRun 0 = true
  hash : ∀ k, E.stopHash k = true → E.stopRun 0 = true

/-- The user does not interrupt the program. -/
structure Env.Calm (E : Env) : Prop where
  lots : 0 < E.lotCount
  stopRef : ∀ i, E.stopRef i = false
  stopTest : ∀ i, E.stopTest i = false
  stopHash : ∀ i, E.stopHash i = false
  stopRun : ∀ i, E.stopRun i = false

theorem Env.Calm.sticky {E : Env} (h : E.Calm) : E.Sticky :=
  ⟨fun k hk => by rw [h.stopTest] at hk; simp at hk, fun k hk => by rw [h.stopHash] at hk; simp at hk⟩

/-- A hash in the request is of the type to be computed. -/
def Param.HashOk (p : Param) : Prop := ∀ h t, Metadata.hsh h ∈ p.update → p.hashType = some t → h.ty = t

/-- The command line always gives such requests. -/
theorem cli_hashOk (H : HashFn) (c : Cli) : (c.param H).HashOk := by
  intro h t hm ht
  have ht' : c.hash = some t := ht
  unfold Cli.param at hm
  simp only [List.mem_append, Option.mem_toList, Option.map_eq_some_iff, ht'] at hm
  rcases hm with (⟨_, -, hm⟩ | ⟨_, -, hm⟩) | ⟨t', ht', hm⟩
  · simp at hm
  · simp at hm
  · simp only [Option.some.injEq] at ht'
    subst ht'
    simp only [Metadata.hsh.injEq] at hm
    rw [← hm]

/-- What `update` takes the container to be: `mp` is the payload of the metadata block found by the scan, `dpb` the shard counts
recorded there with the burst level given or guessed. -/
structure Sees (E : Env) (p : Param) (f : File) (v : Version) (uid : Uid) (mp : List Byte) (dpb : Option Dpb) : Prop where
  found : ∃ pos, getRefBlock f none none false (.mustBe .metadata) E.stopRef = some (pos, blockOf v uid 0 mp)
  shards : dataParBurst p.ref false f (blockOf v uid 0 mp) = .ok dpb

/-- The fields that get written: those asked for, where hash fields hold the hash computed from the container. -/
def Wanted (E : Env) (p : Param) (f : File) (v : Version) (uid : Uid) (mp : List Byte) (dpb : Option Dpb) (fields : List Metadata) : Prop :=
  match p.hashType with
  | none => fields = p.update
  | some t => ∃ n h, firstFsz (metasFromBytes mp) = some n ∧
      ContentHash.hash E.hash E.lotCount E.stopHash t f (blockOf v uid 0 mp) dpb n = .ok h ∧ fields = p.update.map (setHash h)

theorem hash_type {H : HashFn} {l : Nat} {stop : Nat → Bool} {t : HashType} {f : File} {ref : Block} {dpb : Option Dpb} {n : Nat}
    {h : HashBytes} (hh : ContentHash.hash H l stop t f ref dpb n = .ok h) : h.ty = t.ctxType := by
  unfold ContentHash.hash at hh
  split at hh
  · simp at hh
  · split at hh
    · simp at hh
    · simp only [Except.ok.injEq] at hh
      rw [← hh]; rfl

theorem wanted_space {E : Env} {p : Param} (hp : p.HashOk) {f : File} {v : Version} {uid : Uid} {mp : List Byte} {dpb : Option Dpb}
    {fields : List Metadata} (hw : Wanted E p f v uid mp dpb fields) (rem : List MetaId) (ms : List Metadata) :
    metaSpace (changed fields rem ms) = metaSpace (changed p.update rem ms) := by
  unfold Wanted at hw
  split at hw
  · rw [hw]
  · rename_i t ht
    obtain ⟨n, h, -, hh, rfl⟩ := hw
    refine changed_space (setHash_id h) ?_ rem ms
    intro m hm
    apply setHash_space
    rintro h' rfl
    rw [hash_type hh, hp h' t hm ht]

theorem fits_congr {ref : Block} {upd upd' : List Metadata} {rem : List MetaId}
    (h : ∀ ms, metaSpace (changed upd rem ms) = metaSpace (changed upd' rem ms)) (f : File) (k : Nat) :
    fits ref upd rem f k = fits ref upd' rem f k := by
  unfold fits
  cases fieldsAt ref f k with
  | none => rfl
  | some ms => simp only [h]

/-- The block found by the scan is a metadata block of the file. -/
theorem found_block {f : File} {stop : Nat → Bool} {pos : Nat} {ref : Block}
    (h : getRefBlock f none none false (.mustBe .metadata) stop = some (pos, ref)) :
    ∃ v uid mp, ref = blockOf v uid 0 mp ∧ IsBlock (f.readAt pos (blockLen v)) v uid 0 mp := by
  obtain ⟨⟨l, h1, h2⟩, h3⟩ := C34_interrupted f none none false (.mustBe .metadata) stop _ rfl
  obtain ⟨v, uid, seq, p, hb, rfl⟩ := h3 _ _ h
  rw [h] at h2
  have ht := List.find?_some h2.symm
  simp only [decide_eq_true_eq] at ht
  have h0 : seq = 0 := by
    by_contra hne
    simp [blockOf, Block.blockType, hne] at ht
  subst h0
  refine ⟨v, uid, p, rfl, ?_⟩
  rw [range_whole] at hb
  simpa using hb

/-- The runs of `update`: an error before anything is written, or a test run without problem and a real run. -/
theorem updateFile_cases (E : Env) (p : Param) (f : File) :
    (∃ e, updateFile E p f = (⟨f, []⟩, .error e)) ∨
    ∃ v uid mp dpb fields, Sees E p f v uid mp dpb ∧ Wanted E p f v uid mp dpb fields ∧
      (course (isFull (blockOf v uid 0 mp) f) (fits (blockOf v uid 0 mp) p.update p.remove f) E.stopTest 0 (metaCopies (some true) dpb)).2 = false ∧
      updateFile E p f = updateBlocks (blockOf v uid 0 mp) dpb fields p.remove (!p.dryRun) E.stopRun ⟨f, []⟩ := by
  unfold updateFile
  simp only
  cases hr : getRefBlockAligned p.ref (.mustBe .metadata) f E.stopRef (E.stopTest 0) with
  | error e => exact .inl ⟨e, rfl⟩
  | ok x =>
    obtain ⟨pos, ref⟩ := x
    simp only
    have hg : getRefBlock f none none false (.mustBe .metadata) E.stopRef = some (pos, ref) := by
      unfold getRefBlockAligned at hr
      change (match getRefBlock f none none false (.mustBe .metadata) E.stopRef with | none => _ | some x => _) = _ at hr
      split at hr
      · split at hr <;> simp at hr
      · rename_i x hx
        simp only [Except.ok.injEq] at hr
        rw [← hr]; exact hx
    obtain ⟨v, uid, mp, rfl, -⟩ := found_block hg
    cases hz : sizeFor p (blockOf v uid 0 mp) with
    | error e => exact .inl ⟨e, rfl⟩
    | ok size =>
      simp only
      cases hd : dataParBurst p.ref false f (blockOf v uid 0 mp) with
      | error e => exact .inl ⟨e, rfl⟩
      | ok dpb =>
        simp only
        rw [updateBlocks_spec (blockOf v uid 0 mp) dpb p.update p.remove false E.stopTest ⟨f, []⟩]
        have hfile : (⟨f, []⟩ : Disk).file = f := rfl
        simp only [Bool.false_eq_true, if_false, hfile]
        cases hc : (course (isFull (blockOf v uid 0 mp) f) (fits (blockOf v uid 0 mp) p.update p.remove f) E.stopTest 0
            (metaCopies (some true) dpb)).2 with
        | true => exact .inl ⟨.tooMuchMetadata, rfl⟩
        | false =>
          simp only [Bool.false_eq_true, if_false]
          cases hf : fieldsFor E p (blockOf v uid 0 mp) dpb f size with
          | error e => exact .inl ⟨e, by rw [hfile, hf]⟩
          | ok fields =>
            refine .inr ⟨v, uid, mp, dpb, fields, ⟨⟨pos, hg⟩, hd⟩, ?_, hc, by rw [hfile, hf]⟩
            unfold Wanted
            unfold sizeFor at hz
            cases ht : p.hashType with
            | none =>
              rw [ht] at hz
              simp only [Except.ok.injEq] at hz
              subst hz
              simp only [fieldsFor, Except.ok.injEq] at hf
              simp only [hf]
            | some t =>
              rw [ht, getFsz_meta Decode.metas_blockOf] at hz
              cases hn : firstFsz (metasFromBytes mp) with
              | none => rw [hn] at hz; simp at hz
              | some n =>
                rw [hn] at hz
                simp only at hz
                split at hz
                · simp only [Except.ok.injEq] at hz
                  subst hz
                  unfold fieldsFor at hf
                  simp only at hf
                  split at hf
                  · simp at hf
                  · rename_i h hh
                    simp only [Except.ok.injEq] at hf
                    exact ⟨n, h, rfl, hh, hf.symm⟩
                · simp at hz

theorem sees_unique {E : Env} {p : Param} {f : File} {v v' : Version} {uid uid' : Uid} {mp mp' : List Byte} {dpb dpb' : Option Dpb}
    (h : Sees E p f v uid mp dpb) (h' : Sees E p f v' uid' mp' dpb') :
    blockOf v' uid' 0 mp' = blockOf v uid 0 mp ∧ v' = v ∧ uid' = uid ∧ dpb' = dpb := by
  obtain ⟨pos, h1⟩ := h.found
  obtain ⟨pos', h1'⟩ := h'.found
  rw [h1] at h1'
  simp only [Option.some.injEq, Prod.mk.injEq] at h1'
  obtain ⟨-, e⟩ := h1'
  have hd := h'.shards
  rw [← e, h.shards] at hd
  refine ⟨e.symm, ?_, ?_, ?_⟩
  · exact (congrArg (fun b => b.header.version) e).symm
  · exact (congrArg (fun b => b.header.uid) e).symm
  · simpa using hd.symm

/-- The real run has no problem after a test run without problem. -/
theorem real_ok {E : Env} (hE : E.Sticky) {full : Nat → Bool} {fit fit' : Nat → Bool} (hf : ∀ k, fit' k = fit k) {ks : List Nat}
    (h : (course full fit E.stopTest 0 ks).2 = false) : (course full fit' E.stopRun 0 ks).2 = false := by
  by_cases hs : ∃ k, E.stopTest k = true
  · obtain ⟨k, hk⟩ := hs
    rw [course_stopped (hE.test k hk)]
  · rw [course_congr fun k _ => hf k]
    exact course_ok (fun i => by simpa using fun hi => hs ⟨i, hi⟩) h

/-- **C28.** An `update` that fails for any reason, at any time, has written nothing. -/
theorem C28_error_unchanged (E : Env) (hE : E.Sticky) (p : Param) (hp : p.HashOk) (f : File) (e : Err)
    (h : (updateFile E p f).2 = .error e) : (updateFile E p f).1 = ⟨f, []⟩ := by
  rcases updateFile_cases E p f with ⟨e', h'⟩ | ⟨v, uid, mp, dpb, fields, hs, hw, hc, h'⟩
  · rw [h']
  · rw [h', updateBlocks_spec] at h
    rw [show (⟨f, []⟩ : Disk).file = f from rfl,
      real_ok hE (fun k => fits_congr (wanted_space hp hw p.remove) f k) hc] at h
    simp at h

/-- **C28.** If the changed fields of one of the metadata blocks do not fit, nothing is written, and without interruption an error is
reported. -/
theorem C28_no_fit (E : Env) (hE : E.Sticky) (p : Param) (f : File) (v : Version) (uid : Uid) (mp : List Byte)
    (dpb : Option Dpb) (hs : Sees E p f v uid mp dpb) (k : Nat) (hk : k ∈ metaCopies (some true) dpb) (payload : List Byte)
    (hb : IsBlock (piece v f k) v uid 0 payload)
    (hbig : blockLen v - 16 < metaSpace (changed p.update p.remove (metasFromBytes payload))) :
    (updateFile E p f).1 = ⟨f, []⟩ ∧ ((∀ i, E.stopTest i = false) → ∃ e, (updateFile E p f).2 = .error e) := by
  rcases updateFile_cases E p f with ⟨e', h'⟩ | ⟨v', uid', mp', dpb', fields, hs', hw, hc, h'⟩
  · rw [h']; exact ⟨rfl, fun _ => ⟨_, rfl⟩⟩
  · obtain ⟨e, rfl, rfl, rfl⟩ := sees_unique hs hs'
    rw [e] at hc h'
    by_cases hst : ∃ i, E.stopTest i = true
    · obtain ⟨i, hi⟩ := hst
      rw [h', updateBlocks_spec, course_stopped (hE.test i hi)]
      refine ⟨?_, fun hn => by rw [hn] at hi; simp at hi⟩
      simp [opsAt, Disk.writes]
    · exfalso
      have hall := course_all (stop := E.stopTest) (fun i => by simpa using fun hi => hst ⟨i, hi⟩) (i := 0)
        ((metaCopies_sorted dpb').imp fun {a b} hab => isFull_mono (blockOf v' uid' 0 mp) f hab) hc k hk
        (by unfold isFull; simp only [decide_eq_true_eq]; exact (isBlock_length hb).ge)
      have hfit := (course_fit k hall).1
      unfold fits at hfit
      rw [(fieldsAt_iff (ref := blockOf v' uid' 0 mp)).2 ⟨payload, hb, rfl⟩] at hfit
      simp only [decide_eq_true_eq] at hfit
      have : blockLen (blockOf v' uid' 0 mp).header.version = blockLen v' := rfl
      omega

/-- **C28.** Whatever happens, only bytes of valid metadata blocks at metadata places change, and the length of the file does not. -/
theorem C28_only_metadata (E : Env) (p : Param) (f : File) :
    (updateFile E p f).1.file.length = f.length ∧
    ∀ i : Nat, (updateFile E p f).1.file[i]? ≠ f[i]? → ∃ v uid mp dpb k payload, Sees E p f v uid mp dpb ∧
      k ∈ metaCopies (some true) dpb ∧ IsBlock (piece v f k) v uid 0 payload ∧ k * blockLen v ≤ i ∧ i < (k + 1) * blockLen v := by
  rcases updateFile_cases E p f with ⟨e', h'⟩ | ⟨v, uid, mp, dpb, fields, hs, hw, hc, h'⟩
  · rw [h']; exact ⟨rfl, fun i hi => absurd rfl hi⟩
  · rw [h', updateBlocks_spec, show (⟨f, []⟩ : Disk).file = f from rfl]
    cases p.dryRun with
    | true => exact ⟨rfl, fun i hi => absurd rfl hi⟩
    | false =>
      simp only [Bool.not_false, if_true]
      rw [Disk.file_writes, show (⟨f, []⟩ : Disk).file = f from rfl]
      have hpre := course_prefix (isFull (blockOf v uid 0 mp) f) (fits (blockOf v uid 0 mp) fields p.remove f) E.stopRun 0
        (metaCopies (some true) dpb)
      obtain ⟨h1, -, h3⟩ := written (blockOf v uid 0 mp) fields p.remove f _
        (hpre.sublist.nodup ((metaCopies_sorted dpb).imp Nat.ne_of_lt)) fun k hk => (course_fit k hk).1
      refine ⟨h1, ?_⟩
      intro i hi
      by_contra hno
      refine hi (h3 i ?_)
      intro k hk hne
      by_contra hout
      obtain ⟨ms, hms⟩ := Option.ne_none_iff_exists'.1 hne
      obtain ⟨payload, hb, -⟩ := fieldsAt_iff.1 hms
      have hbl : blockLen (blockOf v uid 0 mp).header.version = blockLen v := rfl
      rw [hbl] at hout
      exact hno ⟨v, uid, mp, dpb, k, payload, hs, hpre.subset hk, hb, by omega, by omega⟩

/-- **C28.** In particular data and parity blocks, and everything that is not a valid metadata block of the container, keep every byte. -/
theorem C28_data_untouched (E : Env) (p : Param) (f : File) (v : Version) (uid : Uid) (mp : List Byte) (dpb : Option Dpb)
    (hs : Sees E p f v uid mp dpb) (k : Nat) (hk : k ∉ metaCopies (some true) dpb ∨ ∀ payload, ¬ IsBlock (piece v f k) v uid 0 payload) :
    piece v (updateFile E p f).1.file k = piece v f k := by
  apply List.ext_getElem?
  intro i
  unfold piece
  rw [File.getElem?_readAt, File.getElem?_readAt]
  split
  · rename_i hi
    by_contra hne
    obtain ⟨v', uid', mp', dpb', k', payload, hs', h1, h2, h3, h4⟩ := (C28_only_metadata E p f).2 _ hne
    obtain ⟨-, rfl, rfl, rfl⟩ := sees_unique hs hs'
    have : k' = k := by
      rcases Nat.lt_trichotomy k' k with h | h | h
      · have := Nat.mul_le_mul_right (blockLen v') (show k' + 1 ≤ k from h)
        omega
      · exact h
      · have := Nat.mul_le_mul_right (blockLen v') (show k + 1 ≤ k' from h)
        rw [Nat.succ_mul] at this; omega
    subst this
    rcases hk with hk | hk
    · exact hk h1
    · exact hk payload h2
  · rfl

/-- Requests that the format can represent and that leave the recorded shard counts alone. -/
def Param.Plain (p : Param) : Prop := ∀ m ∈ p.update, m.Storable ∧ m.id ≠ .rsd ∧ m.id ≠ .rsp

theorem firstRsd_filter (ms : List Metadata) : firstRsd ms = firstRsd (ms.filter fun m => m.id = .rsd) := by
  unfold firstRsd
  induction ms with
  | nil => rfl
  | cons m ms ih => cases m <;> simp [Metadata.id, ih]

theorem firstRsp_filter (ms : List Metadata) : firstRsp ms = firstRsp (ms.filter fun m => m.id = .rsp) := by
  unfold firstRsp
  induction ms with
  | nil => rfl
  | cons m ms ih => cases m <;> simp [Metadata.id, ih]

/-- Fields with an id that is not asked for. -/
theorem changed_filter {upd : List Metadata} {rem : List MetaId} {ms : List Metadata} {id : MetaId} (h : id ∉ upd.map (·.id)) :
    (changed upd rem ms).filter (fun m => m.id = id) = if id ∈ rem then [] else ms.filter fun m => m.id = id := by
  have := congrArg (List.filter fun m => decide (m.id = id)) (changed_others upd rem ms)
  rw [List.filter_filter, List.filter_filter] at this
  have e1 : (fun m : Metadata => decide (m.id = id) && decide (m.id ∉ upd.map (·.id))) = fun m => decide (m.id = id) := by
    funext m
    by_cases hm : m.id = id
    · rw [hm]; simpa using h
    · simp [hm]
  have e2 : (fun m : Metadata => decide (m.id = id) && decide (m.id ∉ upd.map (·.id) ∧ m.id ∉ rem)) =
      fun m => decide (m.id = id) && decide (id ∉ rem) := by
    funext m
    by_cases hm : m.id = id
    · rw [hm]
      have : (id ∉ upd.map (·.id) ∧ id ∉ rem) ↔ id ∉ rem := ⟨fun h => h.2, fun h' => ⟨h, h'⟩⟩
      simp only [this]
    · simp [hm]
  rw [e1, e2] at this
  rw [this]
  by_cases hr : id ∈ rem
  · simp [hr]
  · simp [hr]

/-- Fields read from a block, changed, can be read again. -/
theorem changed_readable {upd : List Metadata} (hu : ∀ m ∈ upd, m.Storable ∧ m.id ≠ .rsd ∧ m.id ≠ .rsp) (rem : List MetaId)
    (payload : List Byte) {n : Nat} {bs : List Byte} (h : metasToBytes (changed upd rem (metasFromBytes payload)) n = some bs) :
    metasFromBytes bs = changed upd rem (metasFromBytes payload) := by
  obtain ⟨h1, h2⟩ := C06_parsed_fields_sane payload
  refine metas_roundtrip ?_ ?_ h
  · intro m hm
    rcases (changed_mem hm).1 with h | h
    · exact h1 m h
    · exact (hu m h).1
  · have hd : MetaId.rsd ∉ upd.map (·.id) := fun hc => by
      obtain ⟨m, hm, e⟩ := List.mem_map.1 hc
      exact (hu m hm).2.1 e
    have hp : MetaId.rsp ∉ upd.map (·.id) := fun hc => by
      obtain ⟨m, hm, e⟩ := List.mem_map.1 hc
      exact (hu m hm).2.2 e
    intro d q hd' hq'
    rw [firstRsd_filter, changed_filter hd] at hd'
    rw [firstRsp_filter, changed_filter hp] at hq'
    split at hd'
    · simp [firstRsd] at hd'
    · split at hq'
      · simp [firstRsp] at hq'
      · rw [← firstRsd_filter] at hd'
        rw [← firstRsp_filter] at hq'
        exact h2 d q hd' hq'

theorem wanted_plain {E : Env} {p : Param} (hp : p.Plain) {f : File} {v : Version} {uid : Uid} {mp : List Byte} {dpb : Option Dpb}
    {fields : List Metadata} (hw : Wanted E p f v uid mp dpb fields) : ∀ m ∈ fields, m.Storable ∧ m.id ≠ .rsd ∧ m.id ≠ .rsp := by
  unfold Wanted at hw
  split at hw
  · rw [hw]; exact hp
  · rename_i t ht
    obtain ⟨n, h, -, hh, rfl⟩ := hw
    intro m hm
    obtain ⟨m', hm', rfl⟩ := List.mem_map.1 hm
    rw [setHash_id]
    refine ⟨?_, (hp m' hm').2⟩
    cases m' with
    | hsh h' =>
      have := C07_ctx_type t
      exact ⟨by rw [hash_type hh]; exact this.1, by rw [hash_type hh]; exact this.2.1⟩
    | _ => exact (hp _ hm').1

open Classical in
/-- **C28.** A successful `update`: each valid metadata block is either untouched (only possible if the user interrupted the run) or is
again a valid metadata block, whose fields are the old ones with the requested changes.  The counters tell how many places hold
valid metadata blocks and how many do not. -/
theorem C28_success (E : Env) (p : Param) (hp : p.Plain) (f : File) (v : Version) (uid : Uid) (mp : List Byte) (dpb : Option Dpb)
    (hs : Sees E p f v uid mp dpb) (hd : p.dryRun = false) (st : Stats) (h : (updateFile E p f).2 = .ok st) :
    ∃ fields, Wanted E p f v uid mp dpb fields ∧
    (∀ k ∈ metaCopies (some true) dpb, ∀ payload, IsBlock (piece v f k) v uid 0 payload →
      (piece v (updateFile E p f).1.file k = piece v f k ∧ ∃ i, E.stopRun i = true) ∨
      ∃ payload', IsBlock (piece v (updateFile E p f).1.file k) v uid 0 payload' ∧
        metasFromBytes payload' = changed fields p.remove (metasFromBytes payload)) ∧
    ((∀ i, E.stopRun i = false) →
      st.updated = (metaCopies (some true) dpb).countP (fun k => decide (∃ payload, IsBlock (piece v f k) v uid 0 payload)) ∧
      st.failed = ((metaCopies (some true) dpb).filter fun k => (k + 1) * blockLen v ≤ f.length).countP
        fun k => decide (¬ ∃ payload, IsBlock (piece v f k) v uid 0 payload)) := by
  rcases updateFile_cases E p f with ⟨e', h'⟩ | ⟨v', uid', mp', dpb', fields, hs', hw, hc, h'⟩
  · rw [h'] at h; simp at h
  obtain ⟨e, rfl, rfl, rfl⟩ := sees_unique hs hs'
  have hmp : Wanted E p f v' uid' mp dpb' fields := by
    have hf : firstFsz (metasFromBytes mp') = firstFsz (metasFromBytes mp) := by
      have := congrArg Block.metas e
      rw [Decode.metas_blockOf, Decode.metas_blockOf] at this
      simp only [Option.some.injEq] at this
      rw [this]
    unfold Wanted at hw ⊢
    rw [e, hf] at hw
    exact hw
  rw [e] at hc h'
  refine ⟨fields, hmp, ?_⟩
  rw [h', updateBlocks_spec, show (⟨f, []⟩ : Disk).file = f from rfl, hd] at h ⊢
  simp only [Bool.not_false, if_true] at h ⊢
  rw [Disk.file_writes, show (⟨f, []⟩ : Disk).file = f from rfl]
  set ref := blockOf v' uid' 0 mp with href
  have hbl : blockLen ref.header.version = blockLen v' := rfl
  have hpre := course_prefix (isFull ref f) (fits ref fields p.remove f) E.stopRun 0 (metaCopies (some true) dpb')
  have hnd : (course (isFull ref f) (fits ref fields p.remove f) E.stopRun 0 (metaCopies (some true) dpb')).1.Nodup :=
    hpre.sublist.nodup ((metaCopies_sorted dpb').imp Nat.ne_of_lt)
  obtain ⟨-, h2, h3⟩ := written ref fields p.remove f _ hnd fun k hk => (course_fit k hk).1
  cases hc2 : (course (isFull ref f) (fits ref fields p.remove f) E.stopRun 0 (metaCopies (some true) dpb')).2 with
  | true => rw [hc2] at h; simp at h
  | false =>
    rw [hc2] at h
    simp only [Bool.false_eq_true, if_false, Except.ok.injEq] at h
    have hmono := (metaCopies_sorted dpb').imp fun {a b} hab => isFull_mono ref f hab
    constructor
    · intro k hk payload hb
      by_cases hin : k ∈ (course (isFull ref f) (fits ref fields p.remove f) E.stopRun 0 (metaCopies (some true) dpb')).1
      · right
        have hfa : fieldsAt ref f k = some (metasFromBytes payload) := fieldsAt_iff.2 ⟨payload, hb, rfl⟩
        have hfit := (course_fit k hin).1
        have hfit' := hfit
        unfold fits at hfit'
        rw [hfa] at hfit'
        simp only [decide_eq_true_eq] at hfit'
        obtain ⟨bs, e1, e2, -⟩ := (C05_metadata_write _ _).2 hfit'
        have hnew : newAt ref fields p.remove f k = some (blockBytes v' uid'.bytes 0 bs) := by
          unfold newAt; rw [hfa, Option.map_some, e1]; rfl
        have hw2 := h2 k hin _ hnew
        change piece v' _ k = _ at hw2
        rw [hw2]
        exact ⟨bs, ⟨rfl, e2⟩, changed_readable (wanted_plain hp hmp) p.remove payload e1⟩
      · left
        refine ⟨?_, ?_⟩
        · apply List.ext_getElem?
          intro i
          unfold piece
          rw [File.getElem?_readAt, File.getElem?_readAt]
          split
          · apply h3
            intro k' hk' _
            rw [hbl]
            have hne : k' ≠ k := by rintro rfl; exact hin hk'
            rcases Nat.lt_or_gt_of_ne hne with h | h
            · have := Nat.mul_le_mul_right (blockLen v') (show k' + 1 ≤ k from h)
              omega
            · have := Nat.mul_le_mul_right (blockLen v') (show k + 1 ≤ k' from h)
              rw [Nat.succ_mul] at this; omega
          · rfl
        · by_contra hno
          refine hin (course_all (fun i => by simpa using fun hi => hno ⟨i, hi⟩) hmono hc2 k hk ?_)
          unfold isFull; simp only [decide_eq_true_eq]; exact (isBlock_length hb).ge
    · intro hst
      have hfl : ∀ k, isFull ref f k = decide ((k + 1) * blockLen v' ≤ f.length) := by
        intro k
        unfold isFull piece
        rw [File.readAt_length, hbl, Nat.succ_mul]
        have := blockLen_pos v'
        rw [Bool.eq_iff_iff]
        simp only [decide_eq_true_eq]
        omega
      have hcall : (course (isFull ref f) (fits ref fields p.remove f) E.stopRun 0 (metaCopies (some true) dpb')).1 =
          (metaCopies (some true) dpb').filter fun k => (k + 1) * blockLen v' ≤ f.length := by
        have key : ∀ (ks : List Nat) (i : Nat), ks.Pairwise (fun a b => isFull ref f b = true → isFull ref f a = true) →
            (course (isFull ref f) (fits ref fields p.remove f) E.stopRun i ks).2 = false →
            (course (isFull ref f) (fits ref fields p.remove f) E.stopRun i ks).1 = ks.filter (isFull ref f) := by
          intro ks
          induction ks with
          | nil => intro i _ _; rfl
          | cons k ks ih =>
            intro i hpw hok
            rw [List.pairwise_cons] at hpw
            unfold course at hok ⊢
            rw [hst i] at hok ⊢
            cases hfk : isFull ref f k with
            | false =>
              simp only [Bool.not_false, Bool.or_true, if_true]
              symm
              rw [List.filter_eq_nil_iff]
              intro x hx hfx
              rcases List.mem_cons.1 hx with rfl | hx
              · rw [hfk] at hfx; simp at hfx
              · rw [hpw.1 x hx hfx] at hfk; simp at hfk
            | true =>
              rw [hfk] at hok
              simp only [Bool.not_true, Bool.or_false, Bool.false_eq_true, if_false] at hok ⊢
              cases hft : fits ref fields p.remove f k with
              | false => rw [hft] at hok; simp at hok
              | true =>
                rw [hft] at hok
                simp only [Bool.not_true, Bool.false_eq_true, if_false] at hok ⊢
                rw [List.filter_cons_of_pos hfk, ih _ hpw.2 hok]
        rw [key _ 0 hmono hc2]
        congr 1
        funext k
        exact hfl k
      have hsome : ∀ k, decide (∃ payload, IsBlock (piece v' f k) v' uid' 0 payload) = (fieldsAt ref f k).isSome := by
        intro k
        rw [Bool.eq_iff_iff, decide_eq_true_eq, Option.isSome_iff_exists]
        constructor
        · rintro ⟨payload, hb⟩; exact ⟨_, fieldsAt_iff.2 ⟨payload, hb, rfl⟩⟩
        · rintro ⟨ms, hms⟩
          obtain ⟨payload, hb, -⟩ := fieldsAt_iff.1 hms
          exact ⟨payload, hb⟩
      have hnone : ∀ k, decide (¬ ∃ payload, IsBlock (piece v' f k) v' uid' 0 payload) = (fieldsAt ref f k).isNone := by
        intro k
        have := hsome k
        rw [decide_not, this, Option.not_isSome]
      simp only [hsome, hnone]
      rw [← h, hcall]
      refine ⟨?_, rfl⟩
      show List.countP _ _ = List.countP _ _
      rw [List.countP_filter]
      apply List.countP_congr
      intro k _
      constructor
      · intro hk; simp only [Bool.and_eq_true] at hk; exact hk.1
      · intro hk
        simp only [Bool.and_eq_true]
        refine ⟨hk, ?_⟩
        obtain ⟨ms, hms⟩ := Option.isSome_iff_exists.1 hk
        rw [← hfl]
        unfold isFull
        simp only [decide_eq_true_eq]
        exact (fieldsAt_full hms).ge

theorem setHash_eq (h : HashBytes) (upd : List Metadata) : upd.map (setHash h) = withHash h upd := by
  unfold withHash
  apply List.map_congr_left
  intro m _
  cases m <;> rfl

/-- Nothing gets in the way of the loop. -/
theorem course_full {full fit : Nat → Bool} {stop : Nat → Bool} (hs : ∀ i, stop i = false) {ks : List Nat} (i : Nat)
    (h : ∀ k ∈ ks, full k = true ∧ fit k = true) : course full fit stop i ks = (ks, false) := by
  induction ks generalizing i with
  | nil => rfl
  | cons k ks ih =>
    unfold course
    rw [hs i, (h k List.mem_cons_self).1, (h k List.mem_cons_self).2, ih (i + 1) fun k' hk' => h k' (List.mem_cons_of_mem _ hk')]
    rfl

/-- `update` of a container, not interrupted: what is written. -/
theorem container_written (E : Env) (hE : E.Calm) (p : Param) (hh : p.HashOk) (hd : p.dryRun = false) (rs : RsCodec)
    (v : Version) (uid : Uid) (dpb : Option Dpb) (bytes mb : List Byte) (f : File) (hrs : RsLen rs v dpb)
    (hsh : ∀ d, dpb = some d → 1 ≤ d.data ∧ 1 ≤ d.parity ∧ d.data + d.parity ≤ 256) (hcons : verConsistent v dpb = true)
    (hc : IsContainer rs v uid.bytes true dpb bytes mb f) (ms : List Metadata) (hrec : Records v uid mb ms)
    (hms : firstRsd ms = dpb.map (·.data) ∧ firstRsp ms = dpb.map (·.parity))
    (hn : (payloads rs v dpb (fileChunks v bytes)).length ≤ lastSeqNum)
    (hb : Decode.BurstKnown p.burst dpb (payloads rs v dpb (fileChunks v bytes)).length)
    (hhash : ∀ t, p.hashType = some t → t.supported = true ∧ firstFsz ms = some bytes.length ∧ bytes ≠ [])
    (hfit : metaSpace (changed p.update p.remove ms) ≤ blockLen v - 16) :
    ∃ dk bs, updateFile E p f = (dk, .ok ⟨(metaCopies (some true) dpb).length, 0⟩) ∧
      IsContainer rs v uid.bytes true dpb bytes (blockBytes v uid.bytes 0 bs) dk.file ∧ bs.length = blockLen v - 16 ∧
      metasToBytes (changed (match p.hashType with
        | none => p.update
        | some t => withHash (E.hash.bytes t bytes) p.update) p.remove ms) (blockLen v - 16) = some bs := by
  obtain ⟨mp, hmb, rfl⟩ := hrec
  have hval : Valid dpb := fun d hd => (hsh d hd).1
  have hstart := Decode.container_start hc hmb
  have href := Decode.ref_at_start (q := p.ref) ⟨rfl, rfl, rfl, .inr (.inr rfl)⟩ hE.stopRef (E.stopTest 0) hstart
  have href' : getRefBlockAligned p.ref (.mustBe .metadata) f E.stopRef (E.stopTest 0) = .ok (0, blockOf v uid 0 mp) := href
  have hfound : getRefBlock f none none false (.mustBe .metadata) E.stopRef = some (0, blockOf v uid 0 mp) := by
    have h := href'
    unfold getRefBlockAligned at h
    change (match getRefBlock f none none false (.mustBe .metadata) E.stopRef with | none => _ | some x => _) = _ at h
    split at h
    · split at h <;> simp at h
    · rename_i x hx
      simp only [Except.ok.injEq] at h
      rw [← h]; exact hx
  have hshards := Decode.container_shards hrs hsh hcons hc hmb hms hn p.ref false hb (by simp)
  have hsees : Sees E p f v uid mp dpb := ⟨⟨0, hfound⟩, hshards⟩
  set ref := blockOf v uid 0 mp with hrefdef
  have hbl : blockLen ref.header.version = blockLen v := rfl
  have hpieces : ∀ k ∈ metaCopies (some true) dpb, piece v f k = mb := fun k hk => hc.metas k hk
  have hfields : ∀ k ∈ metaCopies (some true) dpb, fieldsAt ref f k = some (metasFromBytes mp) := by
    intro k hk
    refine fieldsAt_iff.2 ⟨mp, ?_, rfl⟩
    change IsBlock (piece v f k) v uid 0 mp
    rw [hpieces k hk]; exact hmb
  have hfulls : ∀ k ∈ metaCopies (some true) dpb, isFull ref f k = true := by
    intro k hk
    unfold isFull
    rw [hbl, decide_eq_true_eq]
    change _ ≤ (piece v f k).length
    rw [hpieces k hk, isBlock_length hmb]
  have hgo : ∀ (fields : List Metadata) (stop : Nat → Bool), (∀ i, stop i = false) →
      metaSpace (changed fields p.remove (metasFromBytes mp)) ≤ blockLen v - 16 →
      course (isFull ref f) (fits ref fields p.remove f) stop 0 (metaCopies (some true) dpb) = (metaCopies (some true) dpb, false) := by
    intro fields stop hs hf
    refine course_full hs 0 fun k hk => ⟨hfulls k hk, ?_⟩
    unfold fits
    rw [hfields k hk]
    exact decide_eq_true hf
  -- the fields written
  have hfor : ∃ size, sizeFor p ref = .ok size ∧ fieldsFor E p ref dpb f size = .ok (match p.hashType with
        | none => p.update
        | some t => withHash (E.hash.bytes t bytes) p.update) := by
    unfold sizeFor
    cases ht : p.hashType with
    | none => exact ⟨none, rfl, rfl⟩
    | some t =>
      obtain ⟨h1, h2, h3⟩ := hhash t ht
      refine ⟨some (t, bytes.length), ?_, ?_⟩
      · simp only
        rw [getFsz_meta Decode.metas_blockOf, h2]
        simp [h1]
      · unfold fieldsFor
        simp only
        rw [ContentHash.C42_container E.hash E.lotCount hE.lots E.stopHash hE.stopHash t rs v uid dpb hrs hval bytes mb f h3 hc hn mp]
        simp only [setHash_eq]
  obtain ⟨size, hsz, hfor⟩ := hfor
  set fields := (match p.hashType with
        | none => p.update
        | some t => withHash (E.hash.bytes t bytes) p.update) with hfdef
  have hw : Wanted E p f v uid mp dpb fields := by
    unfold Wanted
    cases ht : p.hashType with
    | none => simp only [hfdef, ht]
    | some t =>
      obtain ⟨h1, h2, h3⟩ := hhash t ht
      refine ⟨bytes.length, E.hash.bytes t bytes, h2,
        ContentHash.C42_container E.hash E.lotCount hE.lots E.stopHash hE.stopHash t rs v uid dpb hrs hval bytes mb f h3 hc hn mp, ?_⟩
      rw [setHash_eq, hfdef, ht]
  have hfit' : metaSpace (changed fields p.remove (metasFromBytes mp)) ≤ blockLen v - 16 := by
    rw [wanted_space hh hw]; exact hfit
  obtain ⟨bs, e1, e2, -⟩ := (C05_metadata_write _ _).2 hfit'
  have hrun : updateFile E p f = (Disk.writes ⟨f, []⟩ (opsAt ref fields p.remove f (metaCopies (some true) dpb)),
      .ok ⟨(metaCopies (some true) dpb).length, 0⟩) := by
    unfold updateFile
    simp only
    rw [href']
    simp only
    rw [hsz]
    simp only
    rw [hshards]
    simp only
    rw [updateBlocks_spec, show (⟨f, []⟩ : Disk).file = f from rfl, hgo p.update E.stopTest hE.stopTest hfit]
    simp only [Bool.false_eq_true, if_false]
    rw [show (⟨f, []⟩ : Disk).file = f from rfl, hfor]
    simp only
    rw [updateBlocks_spec, show (⟨f, []⟩ : Disk).file = f from rfl, hgo fields E.stopRun hE.stopRun hfit', hd]
    simp only [Bool.not_false, if_true, Bool.false_eq_true, if_false]
    congr 3
    · rw [List.countP_eq_length]
      intro k hk; rw [hfields k hk]; rfl
    · rw [List.countP_eq_zero]
      intro k hk; rw [hfields k hk]; simp
  have hwr := written ref fields p.remove f (metaCopies (some true) dpb) ((metaCopies_sorted dpb).imp Nat.ne_of_lt) (by
    intro k hk
    unfold fits
    rw [hfields k hk]
    exact decide_eq_true hfit')
  have hnew : ∀ k ∈ metaCopies (some true) dpb, newAt ref fields p.remove f k = some (blockBytes v uid.bytes 0 bs) := by
    intro k hk
    unfold newAt
    rw [hfields k hk, Option.map_some, hbl, e1]; rfl
  refine ⟨_, bs, hrun, ?_, e2, e1⟩
  have hfile : (updateFile E p f).1.file = f.writes (opsAt ref fields p.remove f (metaCopies (some true) dpb)) := by
    rw [hrun]; exact Disk.file_writes _ _
  have hrest : ∀ k, k ∉ metaCopies (some true) dpb →
      (f.writes (opsAt ref fields p.remove f (metaCopies (some true) dpb))).readAt (k * blockLen v) (blockLen v) =
        f.readAt (k * blockLen v) (blockLen v) := by
    intro k hk
    have := C28_data_untouched E p f v uid mp dpb hsees k (.inl hk)
    rw [hfile] at this
    exact this
  rw [show (Disk.writes ⟨f, []⟩ (opsAt ref fields p.remove f (metaCopies (some true) dpb))).file =
    f.writes (opsAt ref fields p.remove f (metaCopies (some true) dpb)) from Disk.file_writes _ _]
  refine ⟨?_, ?_, ?_, ?_, ?_⟩
  · rw [hwr.1]; exact hc.aligned
  · intro i q hq
    rw [hrest _ (C10_data_not_meta _ _ hval (i + 1) (by omega))]
    exact hc.data i q hq
  · intro k hk
    exact hwr.2.1 k hk _ (hnew k hk)
  · intro k h1 h2 h3
    rw [hrest k h2]
    rw [hwr.1] at h1
    exact hc.gaps k h1 h2 h3
  · rw [hwr.1]; exact hc.tight

/-- **C28.** `update` of a container, not interrupted: if the changed fields fit it succeeds, the file is again a container of the same
bytes, and its metadata block (every copy of it) has the old fields with the requested changes; a hash asked for is the hash of
the stored file.  (With `--hash` the file must not be empty, see `C42_empty_violated`.) -/
theorem C28_container (E : Env) (hE : E.Calm) (p : Param) (hp : p.Plain) (hh : p.HashOk) (hd : p.dryRun = false) (rs : RsCodec)
    (v : Version) (uid : Uid) (dpb : Option Dpb) (bytes mb : List Byte) (f : File) (hrs : RsLen rs v dpb)
    (hsh : ∀ d, dpb = some d → 1 ≤ d.data ∧ 1 ≤ d.parity ∧ d.data + d.parity ≤ 256) (hcons : verConsistent v dpb = true)
    (hc : IsContainer rs v uid.bytes true dpb bytes mb f) (ms : List Metadata) (hrec : Records v uid mb ms)
    (hms : firstRsd ms = dpb.map (·.data) ∧ firstRsp ms = dpb.map (·.parity))
    (hn : (payloads rs v dpb (fileChunks v bytes)).length ≤ lastSeqNum)
    (hb : Decode.BurstKnown p.burst dpb (payloads rs v dpb (fileChunks v bytes)).length)
    (hhash : ∀ t, p.hashType = some t → t.supported = true ∧ firstFsz ms = some bytes.length ∧ bytes ≠ [])
    (hfit : metaSpace (changed p.update p.remove ms) ≤ blockLen v - 16) :
    ∃ dk mb', updateFile E p f = (dk, .ok ⟨(metaCopies (some true) dpb).length, 0⟩) ∧
      IsContainer rs v uid.bytes true dpb bytes mb' dk.file ∧
      Records v uid mb' (changed (match p.hashType with
        | none => p.update
        | some t => withHash (E.hash.bytes t bytes) p.update) p.remove ms) := by
  obtain ⟨dk, bs, h1, h2, h3, h4⟩ := container_written E hE p hh hd rs v uid dpb bytes mb f hrs hsh hcons hc ms hrec hms hn hb hhash hfit
  refine ⟨dk, _, h1, h2, bs, ⟨rfl, h3⟩, ?_⟩
  obtain ⟨mp, -, rfl⟩ := hrec
  refine changed_readable ?_ p.remove mp h4
  cases p.hashType with
  | none => exact hp
  | some t =>
    intro m hm
    unfold withHash at hm
    obtain ⟨m', hm', rfl⟩ := List.mem_map.1 hm
    have := C07_ctx_type t
    by_cases hi : m'.id = .hsh
    · rw [if_pos hi]
      exact ⟨⟨this.1, this.2.1⟩, by simp [Metadata.id], by simp [Metadata.id]⟩
    · rw [if_neg hi]; exact hp m' hm'

/-- **C28, interruption.** If the user interrupts while the container is being hashed (so that only a part of it has been hashed) nothing
is written. -/
theorem C28_interrupted_hash (E : Env) (hE : E.Sticky) (p : Param) (f : File) (i : Nat) (hi : E.stopHash i = true) :
    (updateFile E p f).1 = ⟨f, []⟩ := by
  rcases updateFile_cases E p f with ⟨e', h'⟩ | ⟨v, uid, mp, dpb, fields, -, -, -, h'⟩
  · rw [h']
  · rw [h', updateBlocks_spec, course_stopped (hE.hash i hi)]
    simp [opsAt, Disk.writes]

/-! ### C27 -/

/-- **C27.** A dry run of `update` writes nothing, whenever it is interrupted. -/
theorem C27_update_dry (E : Env) (p : Param) (f : File) (hd : p.dryRun = true) : (updateFile E p f).1 = ⟨f, []⟩ := by
  rcases updateFile_cases E p f with ⟨e', h'⟩ | ⟨v, uid, mp, dpb, fields, hs, hw, hc, h'⟩
  · rw [h']
  · rw [h', updateBlocks_spec, hd]
    simp

/-- **C27.** A dry run of `update` reports the same counters, or the same error, as the real run on the same file (interrupted at the same
moment or not at all). -/
theorem C27_update_same (E : Env) (p : Param) (f : File) :
    (updateFile E { p with dryRun := true } f).2 = (updateFile E { p with dryRun := false } f).2 := by
  unfold updateFile
  simp only
  have hs : ∀ ref, sizeFor { p with dryRun := true } ref = sizeFor { p with dryRun := false } ref := fun _ => rfl
  have hf : ∀ ref dpb f size, fieldsFor E { p with dryRun := true } ref dpb f size = fieldsFor E { p with dryRun := false } ref dpb f size := by
    intro ref dpb f size; cases size <;> rfl
  have hr : Param.ref { p with dryRun := true } = Param.ref { p with dryRun := false } := rfl
  rw [hr]
  cases getRefBlockAligned (Param.ref { p with dryRun := false }) (.mustBe .metadata) f E.stopRef (E.stopTest 0) with
  | error e => rfl
  | ok x =>
    obtain ⟨pos, ref⟩ := x
    simp only [hs]
    cases sizeFor { p with dryRun := false } ref with
    | error e => rfl
    | ok size =>
      simp only
      cases dataParBurst (Param.ref { p with dryRun := false }) false f ref with
      | error e => rfl
      | ok dpb =>
        simp only
        rcases updateBlocks ref dpb p.update p.remove false E.stopTest ⟨f, []⟩ with ⟨d, _ | _⟩
        · rfl
        · simp only [hf]
          cases fieldsFor E { p with dryRun := false } ref dpb d.file size with
          | error e => rfl
          | ok fields =>
            simp only
            rw [updateBlocks_spec, updateBlocks_spec]


/-! ### Instances and counterexamples -/

/-- Nobody interferes. -/
noncomputable def calmEnv : Env := ⟨Decode.calmEnv.hash, 2, fun _ => false, fun _ => false, fun _ => false, fun _ => false⟩

theorem calm : calmEnv.Calm := ⟨Nat.zero_lt_two, fun _ => rfl, fun _ => rfl, fun _ => rfl, fun _ => rfl⟩

/-- A metadata payload with a name and the size. -/
theorem demo_payload : ∃ mp : List Byte, mp.length = 496 ∧ metasFromBytes mp = [.fnm "a", .fsz 600] := by
  have h1 : ((metasToBytes [.fnm "a", .fsz 600] 496).map fun mp => decide (mp.length = 496 ∧ metasFromBytes mp = [.fnm "a", .fsz 600])) =
      some true := by
    decide +kernel
  rw [Option.map_eq_some_iff] at h1
  obtain ⟨mp, -, h⟩ := h1
  exact ⟨mp, by simpa using h⟩

/-- `update --fnm b --no-snm --hash sha256` as the command line gives it. -/
noncomputable def demoParam : Param := Cli.param calmEnv.hash ⟨some "b", none, some .sha256, false, true, false, false, none⟩

theorem demo_plain : demoParam.Plain := by
  intro m hm
  unfold demoParam Cli.param at hm
  simp only [Option.map_some, Option.map_none, Option.toList_some, Option.toList_none, List.append_nil, List.mem_append,
    List.mem_singleton] at hm
  rcases hm with rfl | rfl
  · refine ⟨⟨by decide +kernel, by decide +kernel⟩, by simp [Metadata.id], by simp [Metadata.id]⟩
  · refine ⟨⟨by simp, by simp⟩, by simp [Metadata.id], by simp [Metadata.id]⟩

/-- The name is changed and the hash of the stored file recorded. -/
example : ∃ mp dk mb' h, mp.length = 496 ∧ updateFile calmEnv demoParam (Demo.file mp) = (dk, .ok ⟨1, 0⟩) ∧
    IsContainer RsWitness.codec .v1 Decode.demoUid.bytes true none Decode.demoBytes mb' dk.file ∧
    Records .v1 Decode.demoUid mb' [.fnm "b", .fsz 600, .hsh h] ∧ h = calmEnv.hash.bytes .sha256 Decode.demoBytes := by
  obtain ⟨mp, hl, hm⟩ := demo_payload
  obtain ⟨dk, mb', h1, h2, h3⟩ := C28_container calmEnv calm demoParam demo_plain (cli_hashOk _ _) rfl RsWitness.codec .v1 Decode.demoUid
    none Decode.demoBytes (Decode.demoBlock 0 mp) (Demo.file mp) (Demo.rsLen_none _ _) (by simp) rfl
    (Demo.plain_container RsWitness.codec mp hl) [.fnm "a", .fsz 600] ⟨mp, Decode.demo_is 0 mp hl, hm⟩ ⟨rfl, rfl⟩
    (by rw [Decode.demo_payloads]; decide) (by intro d hd; simp at hd)
    (by
      intro t ht
      obtain rfl : HashType.sha256 = t := Option.some.inj ht
      exact ⟨rfl, by rw [Decode.demo_len]; rfl, List.ne_nil_of_length_pos (by rw [Decode.demo_len]; decide)⟩)
    (by decide +kernel)
  refine ⟨mp, dk, mb', _, hl, h1, h2, h3, rfl⟩

/-- A request that is too big: 250 bytes of file name and 250 bytes of container name do not fit into 496 bytes. -/
def bigParam : Param := ⟨false, [.fnm (String.ofList (List.replicate 250 'x')), .snm (String.ofList (List.replicate 250 'y'))], [], none, none⟩

theorem demo_sees (mp : List Byte) (hl : mp.length = 496) (p : Param) : Sees calmEnv p (Demo.file mp) .v1 Decode.demoUid mp none := by
  have hc := Demo.plain_container RsWitness.codec mp hl
  have hstart := Decode.container_start hc (Decode.demo_is 0 mp hl)
  have h := Decode.ref_at_start (q := p.ref) ⟨rfl, rfl, rfl, .inr (.inr rfl)⟩ calm.stopRef false hstart
  refine ⟨⟨0, ?_⟩, rfl⟩
  unfold getRefBlockM at h
  change (match getRefBlock (Demo.file mp) none none false (.mustBe .metadata) calmEnv.stopRef with | none => _ | some x => _) = _ at h
  split at h
  · simp at h
  · rename_i x hx
    simp only [Except.ok.injEq] at h
    rw [← h]; exact hx

example : ∃ mp e, mp.length = 496 ∧ updateFile calmEnv bigParam (Demo.file mp) = (⟨Demo.file mp, []⟩, .error e) := by
  obtain ⟨mp, hl, hm⟩ := demo_payload
  obtain ⟨h1, h2⟩ := C28_no_fit calmEnv calm.sticky bigParam (Demo.file mp) .v1 Decode.demoUid mp none (demo_sees mp hl _) 0
    (by simp [metaCopies]) mp (by
      have := Decode.container_start (Demo.plain_container RsWitness.codec mp hl) (Decode.demo_is 0 mp hl)
      unfold piece
      rwa [Nat.zero_mul]) (by rw [hm]; decide +kernel)
  obtain ⟨e, he⟩ := h2 calm.stopTest
  exact ⟨mp, e, hl, Prod.ext h1 he⟩

/-- `update --fnm` with a name of 260 bytes. -/
def longParam : Param := ⟨false, [.fnm (String.ofList (List.replicate 260 'x'))], [], none, none⟩

/-- **C28 and C29 do not hold for names longer than 255 bytes** (nothing checks the length; the length byte wraps around): the update of
an intact container succeeds, but afterwards the name is a different one and all fields behind it, here the size of the file,
cannot be read any more. -/
theorem C28_long_name_violated : ∃ mp dk mb', Records .v1 Decode.demoUid (Decode.demoBlock 0 mp) [.fnm "a", .fsz 600] ∧
    IsContainer RsWitness.codec .v1 Decode.demoUid.bytes true none Decode.demoBytes (Decode.demoBlock 0 mp) (Demo.file mp) ∧
    updateFile calmEnv longParam (Demo.file mp) = (dk, .ok ⟨1, 0⟩) ∧
    IsContainer RsWitness.codec .v1 Decode.demoUid.bytes true none Decode.demoBytes mb' dk.file ∧
    Records .v1 Decode.demoUid mb' [.fnm "xxxx"] := by
  obtain ⟨mp, hl, hm⟩ := demo_payload
  have hc := Demo.plain_container RsWitness.codec mp hl
  have hrec : Records .v1 Decode.demoUid (Decode.demoBlock 0 mp) [.fnm "a", .fsz 600] := ⟨mp, Decode.demo_is 0 mp hl, hm⟩
  obtain ⟨dk, bs, h1, h2, h3, h4⟩ := container_written calmEnv calm longParam (fun h t _ ht => absurd (show none = some t from ht) (by simp)) rfl RsWitness.codec .v1
    Decode.demoUid none Decode.demoBytes (Decode.demoBlock 0 mp) (Demo.file mp) (Demo.rsLen_none _ _) (by simp) rfl
    hc [.fnm "a", .fsz 600] hrec ⟨rfl, rfl⟩
    (by rw [Decode.demo_payloads]; decide) (by intro d hd; simp at hd) (fun t ht => absurd (show none = some t from ht) (by simp))
    (by decide +kernel)
  refine ⟨mp, dk, _, hrec, hc, h1, h2, bs, ⟨rfl, h3⟩, ?_⟩
  have h5 : ((metasToBytes (changed longParam.update longParam.remove [.fnm "a", .fsz 600]) (blockLen .v1 - 16)).map metasFromBytes) =
      some [.fnm "xxxx"] := by decide +kernel
  have h4' : metasToBytes (changed longParam.update longParam.remove [.fnm "a", .fsz 600]) (blockLen .v1 - 16) = some bs := h4
  rw [h4', Option.map_some] at h5
  exact Option.some.inj h5

/-- `update --fnm ""`. -/
def emptyParam : Param := ⟨false, [.fnm ""], [], none, none⟩

/-- **C28 and C29 do not hold for empty names**: an empty name is written without complaint, but cannot be read, and neither can the
fields behind it. -/
theorem C28_empty_name_violated : ∃ mp dk mb', Records .v1 Decode.demoUid (Decode.demoBlock 0 mp) [.fnm "a", .fsz 600] ∧
    IsContainer RsWitness.codec .v1 Decode.demoUid.bytes true none Decode.demoBytes (Decode.demoBlock 0 mp) (Demo.file mp) ∧
    updateFile calmEnv emptyParam (Demo.file mp) = (dk, .ok ⟨1, 0⟩) ∧
    IsContainer RsWitness.codec .v1 Decode.demoUid.bytes true none Decode.demoBytes mb' dk.file ∧
    Records .v1 Decode.demoUid mb' [] := by
  obtain ⟨mp, hl, hm⟩ := demo_payload
  have hc := Demo.plain_container RsWitness.codec mp hl
  have hrec : Records .v1 Decode.demoUid (Decode.demoBlock 0 mp) [.fnm "a", .fsz 600] := ⟨mp, Decode.demo_is 0 mp hl, hm⟩
  obtain ⟨dk, bs, h1, h2, h3, h4⟩ := container_written calmEnv calm emptyParam (by intro h t hm ht; simp [emptyParam] at ht) rfl RsWitness.codec .v1
    Decode.demoUid none Decode.demoBytes (Decode.demoBlock 0 mp) (Demo.file mp) (Demo.rsLen_none _ _) (by simp) rfl
    hc [.fnm "a", .fsz 600] hrec ⟨rfl, rfl⟩
    (by rw [Decode.demo_payloads]; decide) (by intro d hd; simp at hd) (by intro t ht; simp [emptyParam] at ht)
    (by decide +kernel)
  refine ⟨mp, dk, _, hrec, hc, h1, h2, bs, ⟨rfl, h3⟩, ?_⟩
  have h5 : ((metasToBytes (changed emptyParam.update emptyParam.remove [.fnm "a", .fsz 600]) (blockLen .v1 - 16)).map metasFromBytes) =
      some [] := by decide +kernel
  have h4' : metasToBytes (changed emptyParam.update emptyParam.remove [.fnm "a", .fsz 600]) (blockLen .v1 - 16) = some bs := h4
  rw [h4', Option.map_some] at h5
  exact Option.some.inj h5

end Verif.Update
