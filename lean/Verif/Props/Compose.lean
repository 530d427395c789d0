import Verif.Lemmas.Compose
import Verif.Props.History
/-!
# C78: updates can be repeated, taken back, and made in any order
-/

namespace Verif.ComposeSpec
open Format ContainerSpec LayoutSpec UpdateSpec History

variable {S : Setting} {ms ms' : List Metadata} {c c' : File}

/-- The container is determined by its fields. -/
theorem Kept.unique (hS : S.Ok) (h : Kept S ms c) (h' : Kept S ms c') : c = c' := by
  obtain ⟨mp, hcon, -, hms⟩ := h.container
  obtain ⟨mp', hcon', -, hms'⟩ := h'.container
  rw [hms] at hms'
  cases hms'
  have hps := (payloads_spec (rs := S.rs) hS.lengths hS.valid (cs := fileChunks S.version S.bytes) (by
    intro c hcm
    unfold fileChunks at hcm
    rw [← dataSize_eq] at hcm
    exact (mem_chunksOf _ c hcm).2.1)).2
  refine Image.unique hps (fun _ => ?_) hcon hcon'
  have : IsBlock (blockBytes S.version S.uid.bytes 0 mp) S.version S.uid 0 mp := ⟨rfl, metasToBytes_length hms⟩
  rw [← blockLen_eq]
  exact Scan.isBlock_length this

/-- The fields a call of `update` makes. -/
noncomputable def after (S : Setting) (q : Update.Cli) (ms : List Metadata) : List Metadata :=
  changed ((q.param S.hash).filled S.hash S.bytes) (q.param S.hash).remove ms

/-- An `update` that is not a dry run succeeds exactly if the new fields fit, and then the container has these fields. -/
theorem update_iff (hS : S.Ok) (hk : Kept S ms c) (E : Update.Env) (hE : E.Calm) (hH : E.hash = S.hash) (q : Update.Cli) (hq : Request S q)
    (hd : q.dryRun = false) :
    ((∃ st, (Update.updateFile E (q.param S.hash) c).2 = .ok st) ↔ metaSpace (after S q ms) ≤ blockLen S.version - 16) ∧
    (metaSpace (after S q ms) ≤ blockLen S.version - 16 → Kept S (after S q ms) (Update.updateFile E (q.param S.hash) c).1.file) := by
  obtain ⟨mp, hcon, hmp, hms⟩ := hk.container
  have hlen := metasToBytes_length hms
  have hblock : IsBlock (blockBytes S.version S.uid.bytes 0 mp) S.version S.uid 0 mp := ⟨rfl, hlen⟩
  have hhash : ∀ t, (q.param S.hash).hashType = some t → t.supported = true ∧ firstFsz ms = some S.bytes.length ∧ S.bytes ≠ [] := by
    intro t ht
    obtain ⟨⟨name, hn⟩, hne⟩ := hq.hash t ht
    exact ⟨(ofStr_type hn).1, hk.size, hne⟩
  have hsp : metaSpace (after S q ms) = metaSpace (changed (q.param S.hash).update (q.param S.hash).remove ms) :=
    Update.filled_space (Update.cli_hashOk _ _) _ _ _
  rw [hsp]
  have hgo : metaSpace (changed (q.param S.hash).update (q.param S.hash).remove ms) ≤ blockLen S.version - 16 →
      (∃ st, (Update.updateFile E (q.param S.hash) c).2 = .ok st) ∧ Kept S (after S q ms) (Update.updateFile E (q.param S.hash) c).1.file := by
    intro hfit
    obtain ⟨dk, bs, h1, h2, h3, h4⟩ := Update.container_written E hE (q.param S.hash) (Update.cli_hashOk _ _) hd S.rs
      S.version S.uid S.dpb S.bytes _ c hS.lengths hS.shards hS.consistent hcon ms ⟨mp, hblock, hmp⟩ ⟨hk.data, hk.parity⟩ hS.numbers
      hq.burst hhash hfit
    rw [hH] at h4
    change metasToBytes (changed ((q.param S.hash).filled S.hash S.bytes) (q.param S.hash).remove ms) _ = some bs at h4
    refine ⟨⟨_, by rw [h1]⟩, ?_⟩
    rw [h1]
    have hf := Update.filled_fields (Update.cli_keeps S.hash q) S.hash S.bytes ms
    unfold after
    refine ⟨⟨bs, h2, ?_, h4⟩, by rw [hf.1]; exact hk.size, by rw [hf.2.1]; exact hk.data, by rw [hf.2.2]; exact hk.parity,
      hash_after hq hk.hash⟩
    rw [← hmp] at h4 ⊢
    exact Update.changed_readable (Update.filled_plain (request_plain hq) _ _) _ _ h4
  refine ⟨⟨?_, fun h => (hgo h).1⟩, fun h => (hgo h).2⟩
  rintro ⟨st, hst⟩
  by_contra hfit
  have h0 : (0 : Nat) ∈ metaCopies (some true) S.dpb := by
    cases S.dpb with
    | none => simp [metaCopies]
    | some d => exact List.mem_map.2 ⟨0, List.mem_range.2 (by omega), by simp⟩
  have hsees : Update.Sees E (q.param S.hash) c S.version S.uid mp S.dpb := sees hS hk hcon hmp hblock hE hq.burst
  obtain ⟨e, he⟩ := (Update.C28_no_fit E hE.sticky (q.param S.hash) c S.version S.uid mp S.dpb hsees 0 h0 mp
    (by rw [show RepairSpec.piece S.version c 0 = _ from hcon.metas 0 h0]; exact hblock) (by rw [hmp]; omega)).2 hE.stopTest
  rw [hst] at he
  simp at he

/-! ### What a call of `update` asks for -/

theorem ids_filled (S : Setting) (q : Update.Cli) : ((q.param S.hash).filled S.hash S.bytes).map (·.id) = sets q := by
  rw [Update.filled_ids]
  unfold Update.Cli.param sets
  cases q.fnm <;> cases q.snm <;> cases q.hash <;> rfl

theorem remove_eq (H : HashFn) (q : Update.Cli) : (q.param H).remove = removes q := rfl

theorem lastFor_filled (S : Setting) (q : Update.Cli) (id : MetaId) :
    lastFor ((q.param S.hash).filled S.hash S.bytes) id = match id with
      | .fnm => q.fnm.map .fnm
      | .snm => q.snm.map .snm
      | .hsh => q.hash.map fun t => .hsh (S.hash.bytes t S.bytes)
      | _ => none := by
  unfold Update.Param.filled Update.Cli.param lastFor withHash
  cases q.fnm <;> cases q.snm <;> cases q.hash <;> cases id <;> simp [Metadata.id]

theorem mem_asked {q : Update.Cli} {id : MetaId} : id ∈ asked q ↔ id ∈ sets q ∨ id ∈ removes q := by
  unfold asked sets removes
  cases q.fnm <;> cases q.snm <;> cases q.hash <;> cases q.noFnm <;> cases q.noSnm <;> cases q.noHsh <;> cases id <;> simp

/-! ### C78 -/

/-- **C78.** An `update` that has succeeded succeeds again and changes nothing. -/
theorem C78_repeat (S : Setting) (hS : S.Ok) (ms : List Metadata) (c : File) (hk : Kept S ms c) (E E' : Update.Env) (hE : E.Calm)
    (hE' : E'.Calm) (hH : E.hash = S.hash) (hH' : E'.hash = S.hash) (q : Update.Cli) (hq : Request S q) (hd : q.dryRun = false)
    (st : Update.Stats) (h : (Update.updateFile E (q.param S.hash) c).2 = .ok st) :
    (∃ st', (Update.updateFile E' (q.param S.hash) (Update.updateFile E (q.param S.hash) c).1.file).2 = .ok st') ∧
    (Update.updateFile E' (q.param S.hash) (Update.updateFile E (q.param S.hash) c).1.file).1.file =
      (Update.updateFile E (q.param S.hash) c).1.file := by
  have h1 := update_iff hS hk E hE hH q hq hd
  have hfit := h1.1.1 ⟨st, h⟩
  have hk1 := h1.2 hfit
  have h2 := update_iff hS hk1 E' hE' hH' q hq hd
  have e : after S q (after S q ms) = after S q ms := Update.changed_again _ _ _
  rw [e] at h2
  exact ⟨h2.1.2 hfit, Kept.unique hS (h2.2 hfit) hk1⟩

/-- **C78.** An `update` that sets fields can be taken back: setting the fields to what was recorded before, or removing those that were
not there, always succeeds and gives the container before the update, byte for byte. -/
theorem C78_undo (S : Setting) (hS : S.Ok) (ms : List Metadata) (c : File) (hk : Kept S ms c) (E E' : Update.Env) (hE : E.Calm)
    (hE' : E'.Calm) (hH : E.hash = S.hash) (hH' : E'.hash = S.hash) (q q' : Update.Cli) (hq : Request S q) (hq' : Request S q')
    (hu : Undo S.hash S.bytes ms q q') (st : Update.Stats) (h : (Update.updateFile E (q.param S.hash) c).2 = .ok st) :
    (∃ st', (Update.updateFile E' (q'.param S.hash) (Update.updateFile E (q.param S.hash) c).1.file).2 = .ok st') ∧
    (Update.updateFile E' (q'.param S.hash) (Update.updateFile E (q.param S.hash) c).1.file).1.file = c := by
  have h1 := update_iff hS hk E hE hH q hq hu.real.1
  have hk1 := h1.2 (h1.1.1 ⟨st, h⟩)
  have h2 := update_iff hS hk1 E' hE' hH' q' hq' hu.real.2
  have e : after S q' (after S q ms) = ms := by
    unfold after
    have hr : (q.param S.hash).remove = [] := by
      rw [remove_eq]
      unfold removes
      rw [hu.sets.1, hu.sets.2.1, hu.sets.2.2]
      rfl
    rw [hr]
    obtain ⟨b1, b2, b3⟩ := And.intro hu.fnm (And.intro hu.snm hu.hash)
    unfold Back at b1 b2 b3
    have hno : ∀ id, getMeta ms id = none ↔ id ∉ ms.map (·.id) := fun id => Update.getMeta_none
    apply changed_back
    · intro id
      rw [ids_filled, lastFor_filled]
      unfold sets
      cases id <;> simp <;> split at b1 <;> split at b2 <;> split at b3 <;> simp_all
    · intro id
      rw [ids_filled, remove_eq, ← hno]
      unfold sets removes
      cases id <;> simp <;> split at b1 <;> split at b2 <;> split at b3 <;> simp_all
  rw [e] at h2
  have hfit : metaSpace ms ≤ blockLen S.version - 16 := by
    obtain ⟨mp, -, -, hms⟩ := hk.container
    by_contra hno
    rw [(C05_metadata_write ms _).1.2 (by omega)] at hms
    simp at hms
  exact ⟨h2.1.2 hfit, Kept.unique hS (h2.2 hfit) hk⟩

/-- **C78.** Two updates of different fields can be made in any order: every field is read the same afterwards, and if one of them only
sets fields that are there already, the containers are the same, byte for byte. -/
theorem C78_order (S : Setting) (hS : S.Ok) (ms : List Metadata) (c : File) (hk : Kept S ms c) (E : Update.Env) (hE : E.Calm)
    (hH : E.hash = S.hash) (q1 q2 : Update.Cli) (hq1 : Request S q1) (hq2 : Request S q2) (hd1 : q1.dryRun = false) (hd2 : q2.dryRun = false)
    (hdis : ∀ id ∈ asked q1, id ∉ asked q2) (st1 st2 st12 st21 : Update.Stats)
    (h1 : (Update.updateFile E (q1.param S.hash) c).2 = .ok st1) (h2 : (Update.updateFile E (q2.param S.hash) c).2 = .ok st2)
    (h12 : (Update.updateFile E (q2.param S.hash) (Update.updateFile E (q1.param S.hash) c).1.file).2 = .ok st12)
    (h21 : (Update.updateFile E (q1.param S.hash) (Update.updateFile E (q2.param S.hash) c).1.file).2 = .ok st21) :
    ∃ ms12 ms21, Kept S ms12 (Update.updateFile E (q2.param S.hash) (Update.updateFile E (q1.param S.hash) c).1.file).1.file ∧
      Kept S ms21 (Update.updateFile E (q1.param S.hash) (Update.updateFile E (q2.param S.hash) c).1.file).1.file ∧
      (∀ id, getMeta ms12 id = getMeta ms21 id) ∧
      ((∀ id ∈ sets q1, id ∈ ms.map (·.id)) →
        (Update.updateFile E (q2.param S.hash) (Update.updateFile E (q1.param S.hash) c).1.file).1.file =
          (Update.updateFile E (q1.param S.hash) (Update.updateFile E (q2.param S.hash) c).1.file).1.file) := by
  have a1 := update_iff hS hk E hE hH q1 hq1 hd1
  have k1 := a1.2 (a1.1.1 ⟨_, h1⟩)
  have a2 := update_iff hS hk E hE hH q2 hq2 hd2
  have k2 := a2.2 (a2.1.1 ⟨_, h2⟩)
  have a12 := update_iff hS k1 E hE hH q2 hq2 hd2
  have k12 := a12.2 (a12.1.1 ⟨_, h12⟩)
  have a21 := update_iff hS k2 E hE hH q1 hq1 hd1
  have k21 := a21.2 (a21.1.1 ⟨_, h21⟩)
  have hd : ∀ id, id ∈ ((q1.param S.hash).filled S.hash S.bytes).map (·.id) ∨ id ∈ (q1.param S.hash).remove →
      ¬ (id ∈ ((q2.param S.hash).filled S.hash S.bytes).map (·.id) ∨ id ∈ (q2.param S.hash).remove) := by
    intro id ha hb
    rw [ids_filled, remove_eq, ← mem_asked] at ha hb
    exact hdis id ha hb
  refine ⟨_, _, k12, k21, fun id => ?_, fun hin => ?_⟩
  · rw [getMeta_only, getMeta_only]
    exact congrArg List.head? (changed_order hd id)
  · refine Kept.unique hS k12 ?_
    have : after S q2 (after S q1 ms) = after S q1 (after S q2 ms) := changed_order_eq hd (by rw [ids_filled]; exact hin)
    rw [this]
    exact k21

/-- **C78.** An `update` is made up for by a later one of the same fields: every field is read as if only the later one had been made,
and if the first one only sets fields that are there already, the container is the same, byte for byte. -/
theorem C78_last (S : Setting) (hS : S.Ok) (ms : List Metadata) (c : File) (hk : Kept S ms c) (E : Update.Env) (hE : E.Calm)
    (hH : E.hash = S.hash) (q1 q2 : Update.Cli) (hq1 : Request S q1) (hq2 : Request S q2) (hd1 : q1.dryRun = false) (hd2 : q2.dryRun = false)
    (hsub : ∀ id ∈ asked q1, id ∈ asked q2) (st1 st2 st12 : Update.Stats)
    (h1 : (Update.updateFile E (q1.param S.hash) c).2 = .ok st1) (h2 : (Update.updateFile E (q2.param S.hash) c).2 = .ok st2)
    (h12 : (Update.updateFile E (q2.param S.hash) (Update.updateFile E (q1.param S.hash) c).1.file).2 = .ok st12) :
    ∃ ms12 ms2, Kept S ms12 (Update.updateFile E (q2.param S.hash) (Update.updateFile E (q1.param S.hash) c).1.file).1.file ∧
      Kept S ms2 (Update.updateFile E (q2.param S.hash) c).1.file ∧ (∀ id, getMeta ms12 id = getMeta ms2 id) ∧
      (removes q1 = [] → (∀ id ∈ sets q1, id ∈ ms.map (·.id)) →
        (Update.updateFile E (q2.param S.hash) (Update.updateFile E (q1.param S.hash) c).1.file).1.file =
          (Update.updateFile E (q2.param S.hash) c).1.file) := by
  have a1 := update_iff hS hk E hE hH q1 hq1 hd1
  have k1 := a1.2 (a1.1.1 ⟨_, h1⟩)
  have a2 := update_iff hS hk E hE hH q2 hq2 hd2
  have k2 := a2.2 (a2.1.1 ⟨_, h2⟩)
  have a12 := update_iff hS k1 E hE hH q2 hq2 hd2
  have k12 := a12.2 (a12.1.1 ⟨_, h12⟩)
  have hd : ∀ id, id ∈ ((q1.param S.hash).filled S.hash S.bytes).map (·.id) ∨ id ∈ (q1.param S.hash).remove →
      (id ∈ ((q2.param S.hash).filled S.hash S.bytes).map (·.id) ∨ id ∈ (q2.param S.hash).remove) := by
    intro id ha
    rw [ids_filled, remove_eq, ← mem_asked] at ha ⊢
    exact hsub id ha
  refine ⟨_, _, k12, k2, changed_over hd, fun hrem hin => ?_⟩
  refine Kept.unique hS k12 ?_
  have : after S q2 (after S q1 ms) = after S q2 ms := by
    unfold after
    rw [remove_eq S.hash q1, hrem]
    exact changed_over_eq (fun id h => hd id (.inl h)) (by rw [ids_filled]; exact hin)
  rw [this]
  exact k2

/-! ### Instances -/

/-- 600 bytes in a container of version 1. -/
noncomputable def small : Setting := ⟨RsWitness.codec, Decode.calmEnv.hash, .v1, Decode.demoUid, none, Decode.demoBytes⟩

theorem small_ok : small.Ok := by
  refine ⟨RsWitness.codec_laws, (by intro d hd; cases hd), rfl, ?_⟩
  unfold Setting.blocks
  rw [show payloads small.rs small.version small.dpb (fileChunks small.version small.bytes) = _ from Decode.demo_payloads RsWitness.codec]
  decide

theorem small_kept : ∃ c, Kept small [.fnm "a", .fsz 600] c := by
  have h1 : ((metasToBytes [.fnm "a", .fsz 600] 496).map fun mp =>
      decide (mp.length = 496 ∧ metasFromBytes mp = [.fnm "a", .fsz 600])) = some true := by
    decide +kernel
  rw [Option.map_eq_some_iff] at h1
  obtain ⟨mp, h2, h3⟩ := h1
  simp only [decide_eq_true_eq] at h3
  refine ⟨Demo.file mp, ⟨⟨mp, Demo.plain_container RsWitness.codec mp h3.1, h3.2, h2⟩, ?_, rfl, rfl, ?_⟩⟩
  · rw [show small.bytes.length = 600 from Decode.demo_len]
    rfl
  · intro h hh
    cases hh

theorem small_burst (b : Option Nat) : Decode.BurstKnown b small.dpb small.blocks := by intro d hd; cases hd

/-- `update --fnm b --snm s`. -/
def setBoth : Update.Cli := ⟨some "b", some "s", none, false, false, false, false, none⟩
/-- `update --fnm a --no-snm`. -/
def backBoth : Update.Cli := ⟨some "a", none, none, false, true, false, false, none⟩
/-- `update --fnm b`. -/
def setFnm : Update.Cli := ⟨some "b", none, none, false, false, false, false, none⟩
/-- `update --snm s`. -/
def setSnm : Update.Cli := ⟨none, some "s", none, false, false, false, false, none⟩

theorem setBoth_ok : Request small setBoth :=
  ⟨⟨by simp [setBoth], by simp [setBoth], by simp [setBoth]⟩, (by intro s hs; cases hs; decide +kernel), (by intro s hs; cases hs; decide +kernel),
    (by intro t ht; cases ht), small_burst _⟩
theorem backBoth_ok : Request small backBoth :=
  ⟨⟨by simp [backBoth], by simp [backBoth], by simp [backBoth]⟩, (by intro s hs; cases hs; decide +kernel), (by intro s hs; cases hs),
    (by intro t ht; cases ht), small_burst _⟩
theorem setFnm_ok : Request small setFnm :=
  ⟨⟨by simp [setFnm], by simp [setFnm], by simp [setFnm]⟩, (by intro s hs; cases hs; decide +kernel), (by intro s hs; cases hs),
    (by intro t ht; cases ht), small_burst _⟩
theorem setSnm_ok : Request small setSnm :=
  ⟨⟨by simp [setSnm], by simp [setSnm], by simp [setSnm]⟩, (by intro s hs; cases hs), (by intro s hs; cases hs; decide +kernel),
    (by intro t ht; cases ht), small_burst _⟩

theorem small_runs {ms : List Metadata} {c : File} (hk : Kept small ms c) (q : Update.Cli) (hq : Request small q) (hd : q.dryRun = false)
    (hfit : metaSpace (after small q ms) ≤ 496) :
    (∃ st, (Update.updateFile Update.calmEnv (q.param small.hash) c).2 = .ok st) ∧
    Kept small (after small q ms) (Update.updateFile Update.calmEnv (q.param small.hash) c).1.file :=
  ⟨(update_iff small_ok hk Update.calmEnv Update.calm rfl q hq hd).1.2 hfit, (update_iff small_ok hk Update.calmEnv Update.calm rfl q hq hd).2 hfit⟩

/-- C78_repeat, C78_undo: a container is given another file name and the name of an SBX file, twice, and then those it had before. -/
example : ∃ c c1, Kept small [.fnm "a", .fsz 600] c ∧ c1 = (Update.updateFile Update.calmEnv (setBoth.param small.hash) c).1.file ∧ c1 ≠ c ∧
    (Update.updateFile Update.calmEnv (setBoth.param small.hash) c1).1.file = c1 ∧
    (Update.updateFile Update.calmEnv (backBoth.param small.hash) c1).1.file = c := by
  obtain ⟨c, hk⟩ := small_kept
  obtain ⟨⟨st, hst⟩, hk1⟩ := small_runs hk setBoth setBoth_ok rfl (by
    change metaSpace (changed [.fnm "b", .snm "s"] [] [.fnm "a", .fsz 600]) ≤ 496
    decide +kernel)
  refine ⟨c, _, hk, rfl, ?_, (C78_repeat small small_ok _ c hk _ _ Update.calm Update.calm rfl rfl setBoth setBoth_ok rfl st hst).2,
    (C78_undo small small_ok _ c hk _ _ Update.calm Update.calm rfl rfl setBoth backBoth setBoth_ok backBoth_ok
      ⟨⟨rfl, rfl, rfl⟩, ⟨rfl, rfl⟩, ⟨rfl, rfl⟩, ⟨rfl, rfl⟩, ⟨rfl, rfl⟩⟩ st hst).2⟩
  intro e
  rw [e] at hk1
  obtain ⟨mp, h1, h2, h3⟩ := hk.container
  obtain ⟨mp', h1', h2', h3'⟩ := hk1.container
  have h0 : (0 : Nat) ∈ metaCopies (some true) small.dpb := by simp [small, metaCopies]
  have := (h1.metas 0 h0).symm.trans (h1'.metas 0 h0)
  have hb := congrArg (List.drop 16) this
  rw [blockBytes_drop, blockBytes_drop] at hb
  rw [hb, h2'] at h2
  exact absurd h2 (by
    change changed [.fnm "b", .snm "s"] [] [.fnm "a", .fsz 600] ≠ [.fnm "a", .fsz 600]
    decide +kernel)

/-- C78_order, C78_last: the two names one after the other, in both orders, and the file name twice. -/
example : ∃ c, Kept small [.fnm "a", .fsz 600] c ∧
    (Update.updateFile Update.calmEnv (setSnm.param small.hash) (Update.updateFile Update.calmEnv (setFnm.param small.hash) c).1.file).1.file =
      (Update.updateFile Update.calmEnv (setFnm.param small.hash) (Update.updateFile Update.calmEnv (setSnm.param small.hash) c).1.file).1.file ∧
    (Update.updateFile Update.calmEnv (backBoth.param small.hash) (Update.updateFile Update.calmEnv (setFnm.param small.hash) c).1.file).1.file =
      (Update.updateFile Update.calmEnv (backBoth.param small.hash) c).1.file := by
  obtain ⟨c, hk⟩ := small_kept
  obtain ⟨⟨st1, hst1⟩, hk1⟩ := small_runs hk setFnm setFnm_ok rfl (by
    change metaSpace (changed [.fnm "b"] [] [.fnm "a", .fsz 600]) ≤ 496
    decide +kernel)
  obtain ⟨⟨st2, hst2⟩, hk2⟩ := small_runs hk setSnm setSnm_ok rfl (by
    change metaSpace (changed [.snm "s"] [] [.fnm "a", .fsz 600]) ≤ 496
    decide +kernel)
  obtain ⟨⟨st3, hst3⟩, -⟩ := small_runs hk backBoth backBoth_ok rfl (by
    change metaSpace (changed [.fnm "a"] [.snm] [.fnm "a", .fsz 600]) ≤ 496
    decide +kernel)
  obtain ⟨⟨st12, hst12⟩, -⟩ := small_runs hk1 setSnm setSnm_ok rfl (by
    change metaSpace (changed [.snm "s"] [] (changed [.fnm "b"] [] [.fnm "a", .fsz 600])) ≤ 496
    decide +kernel)
  obtain ⟨⟨st21, hst21⟩, -⟩ := small_runs hk2 setFnm setFnm_ok rfl (by
    change metaSpace (changed [.fnm "b"] [] (changed [.snm "s"] [] [.fnm "a", .fsz 600])) ≤ 496
    decide +kernel)
  obtain ⟨⟨st13, hst13⟩, -⟩ := small_runs hk1 backBoth backBoth_ok rfl (by
    change metaSpace (changed [.fnm "a"] [.snm] (changed [.fnm "b"] [] [.fnm "a", .fsz 600])) ≤ 496
    decide +kernel)
  obtain ⟨_, _, -, -, -, h⟩ := C78_order small small_ok _ c hk _ Update.calm rfl setFnm setSnm setFnm_ok setSnm_ok rfl rfl
    (by simp [asked, setFnm, setSnm]) st1 st2 st12 st21 hst1 hst2 hst12 hst21
  obtain ⟨_, _, -, -, -, h'⟩ := C78_last small small_ok _ c hk _ Update.calm rfl setFnm backBoth setFnm_ok backBoth_ok rfl rfl
    (by simp [asked, setFnm, backBoth]) st1 st3 st13 hst1 hst3 hst13
  exact ⟨c, hk, h (by simp [sets, setFnm, Metadata.id]), h' rfl (by simp [sets, setFnm, Metadata.id])⟩

/-- Two updates that both add a field: the fields have another order then, so the condition of `C78_order` for equal bytes is needed. -/
example : changed [.snm "s"] [] (changed [.fnm "b"] [] [.fsz 3]) ≠ changed [.fnm "b"] [] (changed [.snm "s"] [] [.fsz 3]) := by decide +kernel

end Verif.ComposeSpec
