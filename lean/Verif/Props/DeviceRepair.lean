import Verif.Lemmas.DeviceUpdate
import Verif.Props.Device
import Verif.Props.UpdateResume
/-!
# C49, `repair` and `update`: when success is reported the writes have been carried out, and what is left otherwise

`Repair.repairFile` and `Update.updateFile`, the models used for the other properties, run on a device that takes everything; `ops` are
the writes they issue.  `left` (`Spec/Device.lean`) is what a list of writes leaves behind if the first one that is refused is the last.
-/

namespace Verif.Device
open DeviceSpec Format RepairSpec UpdateSpec ContainerSpec LayoutSpec Layout
open Repair (Sound)

/-- What `repair` finds first, if it finds anything. -/
theorem aligned_some {p : Scan.RefParam} (hp : p.refFrom = none ∧ p.refTo = none) {c : Scan.RefChoice} {f : File} {stop : Nat → Bool} {s : Bool}
    {x : Nat × Block}
    (h : Scan.getRefBlockAligned p c f stop s = .ok x) : Scan.getRefBlock f none none false c stop = some x := by
  unfold Scan.getRefBlockAligned at h
  rw [hp.1, hp.2] at h
  split at h
  · split at h <;> simp at h
  · rename_i y hy
    rw [hy]
    simp only [Except.ok.injEq] at h
    rw [h]

theorem repair_sim {A : Answers} (E : Repair.Env) (burst : Option Nat) (dry : Bool) (f : File) (Q : List (Nat × List Byte) → Prop)
    (R : ∀ pos ref, Scan.getRefBlock f none none false (.mustBe .metadata) E.stopRef = some (pos, ref) →
      ∃ place, Reads A f ref.header.version.blockSize place Q ∧ ∀ k, place (k * ref.header.version.blockSize))
    (hQ : (∀ ws, Q ws) ∨ ∃ dk st, Repair.repairFile E burst dry f = .ok (some (dk, st)) ∧ Q dk.ops) :
    match Repair.repairFile E burst dry f with
    | .error _ => (repair A E burst dry f).2 = none
    | .ok none => repair A E burst dry f = (f, some none)
    | .ok (some (dk, st)) => dk.init = f ∧
        repair A E burst dry f = (left A 0 f dk.ops, (carriedOut A 0 f dk.ops).map fun _ => some st) := by
  unfold Repair.repairFile at hQ ⊢
  unfold repair
  simp only at hQ ⊢
  cases hr : Scan.getRefBlockAligned ⟨.mustBe .metadata, none, none, none, none, none, false, burst⟩ (.mustBe .metadata) f E.stopRef (E.stopMeta 0) with
  | error e => rfl
  | ok x =>
    obtain ⟨pos, ref⟩ := x
    rw [hr] at hQ
    simp only at hQ ⊢
    obtain ⟨place, R1, R2⟩ := R pos ref (aligned_some ⟨rfl, rfl⟩ hr)
    by_cases hu : ref.header.version.usesRs = true
    · rw [if_pos hu] at hQ
      rw [if_pos hu, if_pos hu]
      cases hd : Scan.dataParBurst ⟨.mustBe .metadata, none, none, none, none, none, false, burst⟩ false f ref with
      | error e => rfl
      | ok o =>
        cases o with
        | none => rfl
        | some d =>
          rw [hd] at hQ
          simp only at hQ ⊢
          cases ht : Repair.totalBlocks ref d f with
          | error e => rfl
          | ok total =>
            rw [ht] at hQ
            simp only at hQ ⊢
            have hs := repairWith_sim E dry ref d total R1 (fun _ => ⟨fun p hp => by
                rw [metaAllPos_eq] at hp
                obtain ⟨k, -, rfl⟩ := List.mem_map.1 hp
                exact R2 k, fun i _ => by unfold dataPos Layout.dataWritePos; exact R2 _⟩) (by
              rcases hQ with h | ⟨dk, st, h1, h2⟩
              · exact .inl h
              · right
                cases hw : Repair.repairWith E dry ref d total f with
                | error e => rw [hw] at h1; cases h1
                | ok y =>
                  rw [hw] at h1
                  simp only [Except.ok.injEq, Option.some.injEq] at h1
                  subst h1
                  exact ⟨dk, st, rfl, h2⟩)
            cases hw : Repair.repairWith E dry ref d total f with
            | error e =>
              rw [hw] at hs
              simp only at hs ⊢
              rcases hx : repairWith A E dry ref d total f with ⟨x1, x2⟩
              rw [hx] at hs
              simp only at hs
              subst hs
              rfl
            | ok y =>
              obtain ⟨dk, st⟩ := y
              rw [hw] at hs
              simp only at hs ⊢
              obtain ⟨h1, h2, h3⟩ := hs
              refine ⟨h1, ?_⟩
              rcases hx : repairWith A E dry ref d total f with ⟨x1, x2⟩
              rw [hx] at h2 h3
              simp only at h2 h3
              rcases h3 with ⟨⟨y, rfl, rfl⟩, h4⟩ | ⟨rfl, h4⟩
              · have h5 : carriedOut A 0 f dk.ops = some x1.file := h4.1
                rw [h5]
                simp only [Option.map_some, Prod.mk.injEq, and_true]
                exact h2
              · rw [h4]
                simp only [Option.map_none, Prod.mk.injEq, and_true]
                exact h2
    · rw [if_neg hu, if_neg hu]

/-! ### `repair` -/

/-- Any file, and a device that takes everything of a write or refuses it.  `repair` reports an error if it would on a device that takes
everything, or if one of the writes is refused; the writes before that one have been carried out. -/
theorem C49_repair (A : Answers) (hA : WholeOrError A) (E : Repair.Env) (burst : Option Nat) (dry : Bool) (f : File) :
    (∀ e, Repair.repairFile E burst dry f = .error e → (repair A E burst dry f).2 = none) ∧
    (Repair.repairFile E burst dry f = .ok none → repair A E burst dry f = (f, some none)) ∧
    ∀ dk st, Repair.repairFile E burst dry f = .ok (some (dk, st)) →
      repair A E burst dry f = (left A 0 f dk.ops, (carriedOut A 0 f dk.ops).map fun _ => some st) := by
  have h := repair_sim (A := A) E burst dry f (fun _ => True) (fun _ ref _ => ⟨fun _ => True, reads_whole hA f _ _, fun _ => trivial⟩)
    (.inl fun _ => trivial)
  refine ⟨fun e he => ?_, fun he => ?_, fun dk st he => ?_⟩
  · rw [he] at h; exact h
  · rw [he] at h; exact h
  · rw [he] at h; exact h.2

/-- Success is reported only if the container is the one `repair` makes on a device that takes everything.  Missing for C49: devices that
take a part of a write (`C49_repair_violated`). -/
theorem C49_repair_partial (A : Answers) (hA : WholeOrError A) (E : Repair.Env) (burst : Option Nat) (dry : Bool) (f file : File)
    (st : Repair.Stats) (h : repair A E burst dry f = (file, some (some st))) :
    ∃ dk, Repair.repairFile E burst dry f = .ok (some (dk, st)) ∧ dk.file = file := by
  have hs := repair_sim (A := A) E burst dry f (fun _ => True) (fun _ ref _ => ⟨fun _ => True, reads_whole hA f _ _, fun _ => trivial⟩)
    (.inl fun _ => trivial)
  cases hr : Repair.repairFile E burst dry f with
  | error e => rw [hr] at hs; simp only at hs; rw [h] at hs; cases hs
  | ok o =>
    cases o with
    | none =>
      rw [hr] at hs; simp only at hs; rw [h] at hs
      simp only [Prod.mk.injEq, Option.some.injEq] at hs
      cases hs.2
    | some x =>
      obtain ⟨dk, st'⟩ := x
      rw [hr] at hs
      simp only at hs
      obtain ⟨hi, hs⟩ := hs
      rw [h] at hs
      simp only [Prod.mk.injEq] at hs
      obtain ⟨h1, h2⟩ := hs
      cases hc : carriedOut A 0 f dk.ops with
      | none => rw [hc] at h2; cases h2
      | some g =>
        rw [hc] at h2
        simp only [Option.map_some, Option.some.injEq] at h2
        subst h2
        refine ⟨dk, rfl, ?_⟩
        rw [h1, left_some _ _ _ _ hc, carriedOut_whole hA _ _ _ _ hc]
        unfold Disk.file
        rw [hi]

/-- A container damaged no more than the parity blocks allow, and any device: the same. -/
theorem C49_repair_container (A : Answers) (E : Repair.Env) (laws : E.rs.Laws) (hE : E.Sticky) (v : Version) (uid : Uid) (d : Dpb)
    (bytes mp : List Byte) (c f : File) (h : Sound E.rs v uid d bytes mp c) (hB : 1 ≤ d.burst) (bursts : List (Nat × Nat))
    (hlen : f.length = c.length) (hsize : ∀ b ∈ bursts, b.2 ≤ d.burst) (hcount : ∀ s, (within d bursts s).length ≤ d.parity)
    (hdmg : ∀ k, piece v f k = piece v c k ∨ hit bursts k = true ∧ Broken v (piece v f k)) (dk : Disk) (st : Repair.Stats)
    (hr : Repair.repairFile E (some d.burst) false f = .ok (some (dk, st))) :
    repair A E (some d.burst) false f = (left A 0 f dk.ops, (carriedOut A 0 f dk.ops).map fun _ => some st) := by
  obtain ⟨-, hops⟩ := Repair.ops_right laws hE h hB hlen hsize hcount hdmg hr
  have hE0 : Repair.Env.Calm ⟨E.rs, fun _ => false, fun _ => false, fun _ => false⟩ := ⟨fun _ => rfl, fun _ => rfl, fun _ => rfl⟩
  obtain ⟨hcase, -, -⟩ := Repair.case_of_bursts (E := ⟨E.rs, fun _ => false, fun _ => false, fun _ => false⟩) laws hE0 h hB hlen hsize
    hcount hdmg
  obtain ⟨pos, g1, -⟩ := hcase.sees.found
  have hs := repair_sim (A := A) E (some d.burst) false f (Inside v f) (fun pos' ref hf => by
      have heq := Repair.ref_same hE0.ref hf g1
      simp only [Prod.mk.injEq] at heq
      have hv : ref.header.version = v := by rw [heq.2]; rfl
      rw [hv]
      exact ⟨_, reads_inside A v f, fun k => ⟨k, rfl⟩⟩) (.inr ⟨dk, st, hr, fun w hw => by
      obtain ⟨k, rfl, h1, -⟩ := hops w hw
      exact ⟨k, rfl, Repair.piece_full h1, by rw [hlen]; exact h1⟩⟩)
  rw [hr] at hs
  exact hs.2

/-- **Whatever the device did, repairing again on one that works restores the container**, unless a block written in part is by accident
a valid block, or less of it than signature and version was taken. -/
theorem C49_repair_again (A : Answers) (hA : ∀ n bs k, A n bs = some k → k = 0 ∨ 4 ≤ k ∨ bs.length ≤ k) (E : Repair.Env) (laws : E.rs.Laws) (hE : E.Sticky)
    (v : Version) (uid : Uid) (d : Dpb) (bytes mp : List Byte) (c f : File) (h : Sound E.rs v uid d bytes mp c) (hB : 1 ≤ d.burst)
    (bursts : List (Nat × Nat)) (hlen : f.length = c.length) (hsize : ∀ b ∈ bursts, b.2 ≤ d.burst)
    (hcount : ∀ s, (within d bursts s).length ≤ d.parity)
    (hdmg : ∀ k, piece v f k = piece v c k ∨ hit bursts k = true ∧ Broken v (piece v f k)) (dk : Disk) (st : Repair.Stats)
    (hr : Repair.repairFile E (some d.burst) false f = .ok (some (dk, st))) (g : File) (hg : g = (repair A E (some d.burst) false f).1)
    (hacc : ∀ k, piece v g k = piece v f k ∨ piece v g k = piece v c k ∨ ∀ uid seq payload, ¬ IsBlock (piece v g k) v uid seq payload)
    (E' : Repair.Env) (hrs : E'.rs = E.rs) (hE' : E'.Calm) :
    ∃ dk' st', Repair.repairFile E' (some d.burst) false g = .ok (some (dk', st')) ∧ st'.repairFailed = 0 ∧
      (∀ k ∈ metaCopies (some true) (some d), piece v dk'.file k = piece v c k) ∧
      (∀ s, 1 ≤ s → s ≤ (payloads E.rs v (some d) (fileChunks v bytes)).length →
        piece v dk'.file (placeOf d s) = piece v c (placeOf d s)) ∧
      (GapsClean v d (payloads E.rs v (some d) (fileChunks v bytes)).length f → dk'.file = c) := by
  obtain ⟨-, hops⟩ := Repair.ops_right laws hE h hB hlen hsize hcount hdmg hr
  rw [C49_repair_container A E laws hE v uid d bytes mp c f h hB bursts hlen hsize hcount hdmg dk st hr] at hg
  simp only at hg
  refine Repair.C51_crash E laws hE v uid d bytes mp c f h hB bursts hlen hsize hcount hdmg dk st hr g ?_ E' hrs hE'
  obtain ⟨l1, l2⟩ := left_torn (A := A) (c := fun k => piece v c k) dk.ops 0 f fun w hw => by
    obtain ⟨k, e, h1, -⟩ := hops w hw
    exact ⟨k, e, Repair.piece_full h1, by rw [hlen]; exact h1⟩
  rw [← hg] at l1 l2
  refine ⟨l1, fun k => ?_⟩
  rcases l2 k with e | ⟨m, h1, ⟨i, h2⟩, h3⟩
  · exact .inl e
  rcases hA i _ m h2 with rfl | h4
  · left
    rw [h3]; simp
  have hl : (piece v c k).length = blockLen v := by
    obtain ⟨k', e, h5, -⟩ := hops _ h1
    simp only [Prod.mk.injEq] at e
    rw [e.2]; exact Repair.piece_full h5
  have hf : (piece v f k).length ≤ blockLen v := by unfold piece; rw [File.readAt_length]; omega
  have h16 : 4 ≤ blockLen v := by cases v <;> decide
  have h4 : 4 ≤ m := by
    rcases h4 with h4 | h4
    · exact h4
    · omega
  rcases hacc k with e | e | e
  · exact .inl e
  · right
    refine ⟨_, blockLen v, h1, h16, ?_, fun h => absurd h (Nat.lt_irrefl _)⟩
    rw [e, List.take_of_length_le (by omega), List.drop_eq_nil_of_le hf, List.append_nil]
  · exact .inr ⟨_, m, h1, h4, h3, fun _ => e⟩

/-- A device that takes everything of a write or refuses it: repairing again on one that works restores the container. -/
theorem C49_repair_refused (A : Answers) (hA : WholeOrError A) (E : Repair.Env) (laws : E.rs.Laws) (hE : E.Sticky)
    (v : Version) (uid : Uid) (d : Dpb) (bytes mp : List Byte) (c f : File) (h : Sound E.rs v uid d bytes mp c) (hB : 1 ≤ d.burst)
    (bursts : List (Nat × Nat)) (hlen : f.length = c.length) (hsize : ∀ b ∈ bursts, b.2 ≤ d.burst)
    (hcount : ∀ s, (within d bursts s).length ≤ d.parity)
    (hdmg : ∀ k, piece v f k = piece v c k ∨ hit bursts k = true ∧ Broken v (piece v f k)) (dk : Disk) (st : Repair.Stats)
    (hr : Repair.repairFile E (some d.burst) false f = .ok (some (dk, st))) (E' : Repair.Env) (hrs : E'.rs = E.rs) (hE' : E'.Calm) :
    ∃ dk' st', Repair.repairFile E' (some d.burst) false (repair A E (some d.burst) false f).1 = .ok (some (dk', st')) ∧
      st'.repairFailed = 0 ∧
      (∀ k ∈ metaCopies (some true) (some d), piece v dk'.file k = piece v c k) ∧
      (∀ s, 1 ≤ s → s ≤ (payloads E.rs v (some d) (fileChunks v bytes)).length →
        piece v dk'.file (placeOf d s) = piece v c (placeOf d s)) ∧
      (GapsClean v d (payloads E.rs v (some d) (fileChunks v bytes)).length f → dk'.file = c) := by
  obtain ⟨-, hops⟩ := Repair.ops_right laws hE h hB hlen hsize hcount hdmg hr
  refine C49_repair_again A (fun n bs k hk => .inr (.inr (hA n bs k hk))) E laws hE v uid d bytes mp c f h hB bursts hlen hsize hcount hdmg
    dk st hr _ rfl (fun k => ?_) E' hrs hE'
  rw [C49_repair_container A E laws hE v uid d bytes mp c f h hB bursts hlen hsize hcount hdmg dk st hr]
  obtain ⟨-, l2⟩ := left_torn (A := A) (c := fun k => piece v c k) dk.ops 0 f fun w hw => by
    obtain ⟨k, e, h1, -⟩ := hops w hw
    exact ⟨k, e, Repair.piece_full h1, by rw [hlen]; exact h1⟩
  rcases l2 k with e | ⟨m, h1, ⟨i, h2⟩, h3⟩
  · exact .inl e
  · refine .inr (.inl ?_)
    have hf : (piece v f k).length ≤ blockLen v := by unfold piece; rw [File.readAt_length]; omega
    have hm := hA _ _ _ h2
    have hl : (piece v c k).length = blockLen v := by
      obtain ⟨k', e, h5, -⟩ := hops _ h1
      simp only [Prod.mk.injEq] at e
      rw [e.2]; exact Repair.piece_full h5
    simp only at hm h3 ⊢
    rw [h3, List.take_of_length_le hm, List.drop_eq_nil_of_le (by omega), List.append_nil]

/-! ### `update` -/

theorem update_init (E : Update.Env) (p : Update.Param) (f : File) : (Update.updateFile E p f).1.init = f := by
  rcases Update.updateFile_cases E p f with ⟨e, h⟩ | ⟨v, uid, mp, dpb, fields, -, -, -, h⟩
  · rw [h]
  · rw [h, Update.updateBlocks_spec]
    simp only
    split <;> rfl

/-- Any file, and a device that takes everything of a write or refuses it. -/
theorem C49_update (A : Answers) (hA : WholeOrError A) (E : Update.Env) (p : Update.Param) (f : File) :
    update A E p f = (left A 0 f (Update.updateFile E p f).1.ops,
      if (carriedOut A 0 f (Update.updateFile E p f).1.ops).isSome then (Update.updateFile E p f).2.toOption else none) :=
  update_sim E p f (fun _ => True) (fun ref _ => ⟨fun _ => True, reads_whole hA f _ _, fun _ => trivial⟩) trivial

/-- Success is reported only if the container is the one `update` makes on a device that takes everything.  Missing for C49: devices that
take a part of a write (`C49_update_violated`). -/
theorem C49_update_partial (A : Answers) (hA : WholeOrError A) (E : Update.Env) (p : Update.Param) (f file : File)
    (st : Update.Stats) (h : update A E p f = (file, some st)) :
    ∃ dk, Update.updateFile E p f = (dk, .ok st) ∧ dk.file = file := by
  rw [C49_update A hA] at h
  simp only [Prod.mk.injEq] at h
  obtain ⟨h1, h2⟩ := h
  cases hc : carriedOut A 0 f (Update.updateFile E p f).1.ops with
  | none => rw [hc] at h2; cases h2
  | some g =>
    rw [hc] at h2
    simp only [Option.isSome_some, if_true] at h2
    rw [left_some _ _ _ _ hc, carriedOut_whole hA _ _ _ _ hc] at h1
    have hi := update_init E p f
    rcases hu : Update.updateFile E p f with ⟨x, y⟩
    rw [hu] at h1 h2 hi
    cases y with
    | error e => cases h2
    | ok s => cases h2; exact ⟨x, rfl, by unfold Disk.file; rw [hi]; exact h1⟩

theorem task_ref {E : Update.Env} (hE : E.Sticky) (hl : 0 < E.lotCount) {rs : RsCodec} {v : Version} {uid : Uid} {dpb : Option Dpb}
    {bytes mp : List Byte} {f : File} {p : Update.Param} (h : Update.Task rs v uid dpb bytes mp f p) {pos : Nat} {ref : Block}
    (hf : Scan.getRefBlock f none none false (.mustBe .metadata) E.stopRef = some (pos, ref)) : ref.header.version = v := by
  obtain ⟨bs, hbs, -⟩ := h.new E.hash
  have hrefl : Update.Mixed v uid dpb mp bs f f := Update.Mixed.refl h
  have h0 : (0 : Nat) ∈ metaCopies (some true) dpb := by
    cases dpb with
    | none => simp [metaCopies]
    | some d => exact List.mem_map.2 ⟨0, List.mem_range.2 (by omega), by simp⟩
  have hp0 : IsBlock (piece v f 0) v uid 0 mp := by
    rw [show piece v f 0 = _ from h.container.metas 0 h0]; exact ⟨rfl, h.block⟩
  obtain ⟨pos', k', q, hfound, -⟩ := (Update.found_any (stop := fun _ => false) h.container.aligned (fun _ => rfl) (hrefl.places h hbs)).1 0 mp (by
    have := h.inside h0
    have := blockLen_pos v
    rw [Nat.succ_mul] at *; omega) hp0
  have heq := Repair.ref_same (fun _ => rfl) hf hfound
  simp only [Prod.mk.injEq] at heq
  rw [heq.2]; rfl

/-- The metadata blocks of a container and any device: the same. -/
theorem C49_update_container (A : Answers) (E : Update.Env) (hE : E.Sticky) (hl : 0 < E.lotCount) (rs : RsCodec) (v : Version) (uid : Uid)
    (dpb : Option Dpb) (bytes mp : List Byte) (f : File) (p : Update.Param) (h : Update.Task rs v uid dpb bytes mp f p) :
    update A E p f = (left A 0 f (Update.updateFile E p f).1.ops,
      if (carriedOut A 0 f (Update.updateFile E p f).1.ops).isSome then (Update.updateFile E p f).2.toOption else none) := by
  obtain ⟨bs, hbs, hbl, -⟩ := h.new E.hash
  refine update_sim E p f (Inside v f) (fun ref hf => ?_) fun w hw => ?_
  · obtain ⟨pos, hf⟩ := hf
    have hv : ref.header.version = v := task_ref hE hl h (aligned_some ⟨rfl, rfl⟩ hf)
    rw [hv]
    exact ⟨_, reads_inside A v f, fun k => ⟨k, rfl⟩⟩
  · obtain ⟨k, hk, rfl⟩ := Update.Task.ops E hE hl h hbs w hw
    exact ⟨k, rfl, Scan.isBlock_length (v := v) (uid := uid) (seq := 0) (p := bs) ⟨rfl, hbl⟩, h.inside hk⟩

open Classical in
/-- **Whatever the device did, running the same `update` again on one that works brings every metadata block that can still be read to
the state an undisturbed `update` gives**, unless a block written in part is by accident a valid block, or less of it than signature and
version was taken. -/
theorem C49_update_again (A : Answers) (hA : ∀ n bs k, A n bs = some k → k = 0 ∨ 4 ≤ k ∨ bs.length ≤ k) (E E' : Update.Env) (hE : E.Sticky)
    (hl : 0 < E.lotCount) (hH : E'.hash = E.hash) (hE' : E'.Calm) (rs : RsCodec) (v : Version)
    (uid : Uid) (dpb : Option Dpb) (bytes mp : List Byte) (f : File) (p : Update.Param) (h : Update.Task rs v uid dpb bytes mp f p)
    (bs : List Byte) (hbs : Update.NewPayload v E.hash p bytes mp bs) (g : File) (hg : g = (update A E p f).1)
    (hacc : ∀ k, piece v g k = piece v f k ∨ piece v g k = blockBytes v uid.bytes 0 bs ∨
      ∀ uid seq payload, ¬ IsBlock (piece v g k) v uid seq payload)
    (hb : (∀ d, dpb = some d → p.burst = some d.burst) ∨ ∀ k ∈ metaCopies (some true) dpb, ValidAt v uid g k)
    (hleft : ∃ k ∈ metaCopies (some true) dpb, ValidAt v uid g k) :
    ∃ dk, Update.updateFile E' p g = (dk, .ok ⟨(metaCopies (some true) dpb).countP fun k => decide (ValidAt v uid g k),
        (metaCopies (some true) dpb).countP fun k => decide (¬ ValidAt v uid g k)⟩) ∧
      dk.file.length = (Update.updateFile E' p f).1.file.length ∧
      (∀ k, piece v dk.file k = piece v (Update.updateFile E' p f).1.file k ∨
        k ∈ metaCopies (some true) dpb ∧ ¬ ValidAt v uid g k ∧ piece v dk.file k = piece v g k) ∧
      ((∀ k ∈ metaCopies (some true) dpb, ValidAt v uid g k) → dk.file = (Update.updateFile E' p f).1.file) := by
  have hops := Update.Task.ops E hE hl h hbs
  have hbl : (blockBytes v uid.bytes 0 bs).length = blockLen v :=
    Scan.isBlock_length (v := v) (uid := uid) (seq := 0) (p := bs) ⟨rfl, (hbs.read h).1⟩
  rw [C49_update_container A E hE hl rs v uid dpb bytes mp f p h] at hg
  simp only at hg
  refine Update.C52_crash E E' hE hl hH hE' rs v uid dpb bytes mp f p h g ?_ hb hleft
  obtain ⟨l1, l2⟩ := left_torn (A := A) (v := v) (c := fun _ => blockBytes v uid.bytes 0 bs) (Update.updateFile E p f).1.ops 0 f fun w hw => by
    obtain ⟨k, hk, rfl⟩ := hops w hw
    exact ⟨k, rfl, hbl, h.inside hk⟩
  rw [← hg] at l1 l2
  refine ⟨l1, fun k => ?_⟩
  rcases l2 k with e | ⟨m, h1, ⟨i, h2⟩, h3⟩
  · exact .inl e
  rcases hA i _ m h2 with rfl | h4
  · left
    rw [h3]; simp
  have hf : (piece v f k).length ≤ blockLen v := by unfold piece; rw [File.readAt_length]; omega
  have h16 : 4 ≤ blockLen v := by cases v <;> decide
  have h4 : 4 ≤ m := by
    rcases h4 with h4 | h4
    · exact h4
    · omega
  rcases hacc k with e | e | e
  · exact .inl e
  · right
    refine ⟨_, blockLen v, h1, h16, ?_, fun h => absurd h (Nat.lt_irrefl _)⟩
    rw [e, List.take_of_length_le (by omega), List.drop_eq_nil_of_le hf, List.append_nil]
  · exact .inr ⟨_, m, h1, h4, h3, fun _ => e⟩

open Classical in
/-- A device that takes everything of a write or refuses it: every metadata block is an old or a new one, and the same `update` again on
a working device gives what an undisturbed one does. -/
theorem C49_update_refused (A : Answers) (hA : WholeOrError A) (E E' : Update.Env) (hE : E.Sticky)
    (hl : 0 < E.lotCount) (hH : E'.hash = E.hash) (hE' : E'.Calm) (rs : RsCodec) (v : Version)
    (uid : Uid) (dpb : Option Dpb) (bytes mp : List Byte) (f : File) (p : Update.Param) (h : Update.Task rs v uid dpb bytes mp f p) :
    ∃ dk, Update.updateFile E' p (update A E p f).1 = (dk, .ok ⟨(metaCopies (some true) dpb).length, 0⟩) ∧
      dk.file = (Update.updateFile E' p f).1.file := by
  obtain ⟨bs, hbs, hbn, -⟩ := h.new E.hash
  have hops := Update.Task.ops E hE hl h hbs
  have hbl : (blockBytes v uid.bytes 0 bs).length = blockLen v :=
    Scan.isBlock_length (v := v) (uid := uid) (seq := 0) (p := bs) ⟨rfl, hbn⟩
  have hcases : ∀ k, piece v (update A E p f).1 k = piece v f k ∨ piece v (update A E p f).1 k = blockBytes v uid.bytes 0 bs := by
    intro k
    rw [C49_update_container A E hE hl rs v uid dpb bytes mp f p h]
    obtain ⟨-, l2⟩ := left_torn (A := A) (v := v) (c := fun _ => blockBytes v uid.bytes 0 bs) (Update.updateFile E p f).1.ops 0 f fun w hw => by
      obtain ⟨k, hk, rfl⟩ := hops w hw
      exact ⟨k, rfl, hbl, h.inside hk⟩
    rcases l2 k with e | ⟨m, h1, ⟨i, h2⟩, h3⟩
    · exact .inl e
    · right
      have hf : (piece v f k).length ≤ blockLen v := by unfold piece; rw [File.readAt_length]; omega
      have hm := hA _ _ _ h2
      simp only at hm h3 ⊢
      rw [h3, List.take_of_length_le hm, List.drop_eq_nil_of_le (by omega), List.append_nil]
  have hall : ∀ k ∈ metaCopies (some true) dpb, ValidAt v uid (update A E p f).1 k := by
    intro k hk
    rcases hcases k with e | e
    · exact ⟨0, mp, by rw [e, show piece v f k = _ from h.container.metas k hk]; exact ⟨rfl, h.block⟩⟩
    · exact ⟨0, bs, by rw [e]; exact ⟨rfl, hbn⟩⟩
  have h0 : (0 : Nat) ∈ metaCopies (some true) dpb := by
    cases dpb with
    | none => simp [metaCopies]
    | some d => exact List.mem_map.2 ⟨0, List.mem_range.2 (by omega), by simp⟩
  obtain ⟨dk, r1, -, -, r4⟩ := C49_update_again A (fun n bs k hk => .inr (.inr (hA n bs k hk))) E E' hE hl hH hE' rs v uid dpb bytes mp f p h
    bs hbs _ rfl (fun k => by rcases hcases k with e | e; exacts [.inl e, .inr (.inl e)]) (.inr hall) ⟨0, h0, hall 0 h0⟩
  refine ⟨dk, ?_, r4 hall⟩
  rw [r1, List.countP_eq_length.2 (fun k hk => decide_eq_true (hall k hk)), List.countP_eq_zero.2 (fun k hk => by simp [hall k hk])]

/-! ### Instances -/

section
open ScanSpec Scan FileUtils
open Repair

/-- Four bytes are taken of every write. -/
def fourBytes : Answers := fun _ _ => some 4

/-- Metadata block and first data block are overwritten with zeros. -/
theorem demo_wiped {mp : List Byte} {c : File} (h : Sound RsWitness.codec .v17 demoOwner demoDpb (List.replicate 1000 7) mp c) :
    ∃ f : File, piece .v17 f 0 = List.replicate (blockLen .v17) 0 ∧ piece .v17 f 1 = List.replicate (blockLen .v17) 0 ∧
      f.length = c.length ∧ (∀ k, k ≠ 0 → k ≠ 1 → piece .v17 f k = piece .v17 c k) ∧
      (∀ k, piece .v17 f k = piece .v17 c k ∨ hit [(0, 2)] k = true ∧ Broken .v17 (piece .v17 f k)) ∧
      GapsClean .v17 demoDpb (payloads RsWitness.codec .v17 (some demoDpb) (fileChunks .v17 (List.replicate 1000 7))).length f := by
  have hmp := metasToBytes_length h.plain
  have hal := h.container.aligned
  obtain ⟨hcnt, hps⟩ := Repair.payloads_count RsWitness.codec_laws (v := .v17) (d := demoDpb) (by decide) (by decide) (by decide)
    (List.replicate 1000 7)
  have h0 := (image_meta h.container hmp (k := 0) (by decide)).2
  have h1c : (1 : Nat) ≤ (payloads RsWitness.codec .v17 (some demoDpb) (fileChunks .v17 (List.replicate 1000 7))).length := by
    rw [hcnt, List.length_replicate]; decide
  have h1 := (image_data h.container hps (s := 1) (Nat.le_refl 1) h1c).choose_spec.2.2
  have hp1 : placeOf demoDpb 1 = 1 := by decide
  rw [hp1] at h1
  obtain ⟨a1, a2, a3⟩ := Repair.wipe_spec (k := 0) hal h0
  obtain ⟨b1, b2, b3⟩ := Repair.wipe_spec (c := Repair.wipe .v17 c 0) (k := 1) (by rw [a1]; exact hal) (by rw [a1]; exact h1)
  have hhit : ∀ k, hit [(0, 2)] k = true ↔ k = 0 ∨ k = 1 := by
    intro k
    simp [hit]
    omega
  refine ⟨Repair.wipe .v17 (Repair.wipe .v17 c 0) 1, by rw [b3 0 (by omega), a2], b2, by rw [b1, a1], ?_, ?_, ?_⟩
  · intro k k0 k1
    rw [b3 k k1, a3 k k0]
  · intro k
    by_cases hk : k = 0 ∨ k = 1
    · refine .inr ⟨(hhit k).2 hk, .inl ?_⟩
      rcases hk with rfl | rfl
      · rw [b3 0 (by omega), a2]; exact dead_zeros _
      · rw [b2]; exact dead_zeros _
    · left
      rw [b3 k (by omega), a3 k (by omega)]
  · intro k hk hs
    by_cases hin : k * blockLen .v17 < c.length
    · rw [b3 k (fun e => hs 1 (Nat.le_refl 1) h1c (by rw [hp1, e])), a3 k (fun e => hk (by rw [e]; decide))]
      exact ⟨_, h.container.gaps k hin hk (fun i hi => hs (i + 1) (by omega) (by omega))⟩
    · exact ⟨0, Repair.piece_beyond (by rw [b1, a1]; omega)⟩

theorem demo_sticky : demoEnv.Sticky := fun n hn => by simp [demoEnv] at hn

/-- What four bytes of every write make of it. -/
theorem demo_four {mp : List Byte} {c f : File} (h : Sound RsWitness.codec .v17 demoOwner demoDpb (List.replicate 1000 7) mp c)
    (f0 : piece .v17 f 0 = List.replicate (blockLen .v17) 0) (f1 : piece .v17 f 1 = List.replicate (blockLen .v17) 0)
    (hlen : f.length = c.length) (hothers : ∀ k, k ≠ 0 → k ≠ 1 → piece .v17 f k = piece .v17 c k)
    (hdmg : ∀ k, piece .v17 f k = piece .v17 c k ∨ hit [(0, 2)] k = true ∧ Broken .v17 (piece .v17 f k)) {dk : Disk} {st : Repair.Stats}
    (hr : Repair.repairFile demoEnv (some 3) false f = .ok (some (dk, st))) (k : Nat) :
    piece .v17 (left fourBytes 0 f dk.ops) k = piece .v17 f k ∨
      ∀ uid seq payload, ¬ IsBlock (piece .v17 (left fourBytes 0 f dk.ops) k) .v17 uid seq payload := by
  obtain ⟨-, hops⟩ := Repair.ops_right demo_laws demo_sticky h (by decide) hlen (by decide) (few (by decide)) hdmg hr
  obtain ⟨-, l2⟩ := left_torn (A := fourBytes) (c := fun k => piece .v17 c k) dk.ops 0 f fun w hw => by
    obtain ⟨k, e, h1, -⟩ := hops w hw
    exact ⟨k, e, Repair.piece_full h1, by rw [hlen]; exact h1⟩
  rcases l2 k with e | ⟨m, h1, ⟨i, h2⟩, h3⟩
  · exact .inl e
  right
  obtain ⟨k', e, h5, ⟨sq, pl, hv⟩, h6⟩ := hops _ h1
  simp only [Prod.mk.injEq] at e
  have := Nat.eq_of_mul_eq_mul_right (blockLen_pos .v17) e.1
  subst this
  have hz : piece .v17 f k = List.replicate (blockLen .v17) 0 := by
    by_cases k0 : k = 0
    · rw [k0, f0]
    · by_cases k1 : k = 1
      · rw [k1, f1]
      · exact absurd (hothers k k0 k1) h6
  cases h2
  have h4 := (IsBlock.checksum_field hv).1
  intro uid seq payload
  rw [h3, h4, hz, List.drop_replicate]
  exact Repair.torn_bad

/-- **C49 is violated by `repair`.** Four bytes are taken of every write.  Success is reported, and that nothing has failed to be
repaired; but the first metadata block is as unreadable as before. -/
theorem C49_repair_violated : ∃ mp c f st, Sound RsWitness.codec .v17 demoOwner demoDpb (List.replicate 1000 7) mp c ∧
    (repair fourBytes demoEnv (some 3) false f).2 = some (some st) ∧ st.repairFailed = 0 ∧
    ¬ ValidAt .v17 demoOwner (repair fourBytes demoEnv (some 3) false f).1 0 := by
  obtain ⟨mp, c, h⟩ := demo_sound
  obtain ⟨f, f0, f1, h2, ho, h3, h5⟩ := demo_wiped h
  obtain ⟨dk, st, r1, r2, r3, -⟩ := Repair.C25_bursts demoEnv demo_laws demo_calm .v17 demoOwner demoDpb _ mp c f
    h (by decide) [(0, 2)] h2 (by decide) (few (by decide)) h3
  have hrep := C49_repair_container fourBytes demoEnv demo_laws demo_sticky .v17 demoOwner demoDpb _ mp c f h (by decide)
    [(0, 2)] h2 (by decide) (few (by decide)) h3 dk st r1
  obtain ⟨g, hg⟩ := carriedOut_never (A := fourBytes) (by intro n bs h; cases h) dk.ops 0 f
  rw [hg, show demoDpb.burst = 3 from rfl] at hrep
  refine ⟨mp, c, f, st, h, by rw [hrep]; rfl, r2, ?_⟩
  · rw [hrep]
    rintro ⟨sq, pl, hv⟩
    rcases demo_four h f0 f1 h2 ho h3 r1 0 with e | e
    · rw [e, f0] at hv
      exact zeros_not_block hv
    · exact e _ _ _ hv

/-- C49_repair_again: repairing again after that. -/
example : ∃ c f dk' st', f ≠ c ∧ (repair fourBytes demoEnv (some 3) false f).1 ≠ c ∧
    Repair.repairFile demoEnv (some 3) false (repair fourBytes demoEnv (some 3) false f).1 = .ok (some (dk', st')) ∧ dk'.file = c := by
  obtain ⟨mp, c, h⟩ := demo_sound
  obtain ⟨f, f0, f1, h2, ho, h3, h5⟩ := demo_wiped h
  obtain ⟨dk, st, r1, -⟩ := Repair.C25_bursts demoEnv demo_laws demo_calm .v17 demoOwner demoDpb _ mp c f
    h (by decide) [(0, 2)] h2 (by decide) (few (by decide)) h3
  have hrep := C49_repair_container fourBytes demoEnv demo_laws demo_sticky .v17 demoOwner demoDpb _ mp c f h (by decide)
    [(0, 2)] h2 (by decide) (few (by decide)) h3 dk st r1
  have hfour := demo_four h f0 f1 h2 ho h3 r1
  have h0 := (image_meta h.container (metasToBytes_length h.plain) (k := 0) (by decide)).1
  have hm : IsBlock (piece .v17 c 0) .v17 demoOwner 0 mp := ⟨h0, metasToBytes_length h.plain⟩
  obtain ⟨dk', st', q1, -, -, -, q2⟩ := C49_repair_again fourBytes (fun n bs k hk => by cases hk; exact .inr (.inl (Nat.le_refl _))) demoEnv
    demo_laws demo_sticky .v17 demoOwner demoDpb _ mp c f h (by decide) [(0, 2)] h2 (by decide) (few (by decide)) h3 dk st r1 _ rfl
    (fun k => by
      rw [hrep]
      rcases hfour k with e | e
      · exact .inl e
      · exact .inr (.inr e)) demoEnv rfl demo_calm
  refine ⟨c, f, dk', st', fun e => ?_, fun e => ?_, q1, q2 h5⟩
  · rw [← e, f0] at hm
    exact zeros_not_block hm
  · have e : (repair fourBytes demoEnv (some demoDpb.burst) false f).1 = c := e
    rw [hrep] at e
    simp only at e
    rw [← e] at hm
    rcases hfour 0 with e' | e'
    · rw [e', f0] at hm
      exact zeros_not_block hm
    · exact e' _ _ _ hm

/-- C49_repair, C49_repair_container and C49_repair_refused: no write is carried out, which is reported; nothing is lost. -/
example : ∃ c f dk' st', (repair (fun _ _ => none) demoEnv (some 3) false f) = (f, none) ∧
    Repair.repairFile demoEnv (some 3) false f = .ok (some (dk', st')) ∧ dk'.file = c := by
  obtain ⟨mp, c, h⟩ := demo_sound
  obtain ⟨f, f0, f1, h2, ho, h3, h5⟩ := demo_wiped h
  obtain ⟨dk, st, r1, -, r3, -⟩ := Repair.C25_bursts demoEnv demo_laws demo_calm .v17 demoOwner demoDpb _ mp c f
    h (by decide) [(0, 2)] h2 (by decide) (few (by decide)) h3
  have hA : WholeOrError fun _ _ => none := by intro n bs k h; cases h
  have hrep := (C49_repair (fun _ _ => none) hA demoEnv (some 3) false f).2.2 dk st r1
  obtain ⟨dk', st', q1, -, -, -, q2⟩ := C49_repair_refused (fun _ _ => none) hA demoEnv
    demo_laws demo_sticky .v17 demoOwner demoDpb _ mp c f h (by decide) [(0, 2)] h2 (by decide) (few (by decide)) h3 dk st r1 demoEnv rfl demo_calm
  have h0 := (image_meta h.container (metasToBytes_length h.plain) (k := 0) (by decide)).1
  have hm : IsBlock (piece .v17 c 0) .v17 demoOwner 0 mp := ⟨h0, metasToBytes_length h.plain⟩
  rcases hops : dk.ops with _ | ⟨w, ws⟩
  · exfalso
    have h6 := r3 0 (by decide)
    obtain ⟨hi, -⟩ := ops_right demo_laws demo_sticky h (by decide) h2 (by decide) (few (by decide)) h3 r1
    unfold Disk.file at h6
    rw [hops, hi, show f.writes [] = f from rfl, f0] at h6
    rw [← h6] at hm
    exact zeros_not_block hm
  · rw [hops] at hrep
    have hrep : repair (fun _ _ => none) demoEnv (some demoDpb.burst) false f = (f, none) := hrep
    rw [hrep] at q1
    exact ⟨c, f, dk', st', hrep, q1, q2 h5⟩

/-! `update` renaming the file in a container with three metadata blocks. -/

/-- Six bytes are taken of every write. -/
def sixBytes : Answers := fun _ _ => some 6

/-- Six bytes are taken of the first write; all others are refused. -/
def sixThenNone : Answers := fun n _ => if n = 0 then some 6 else none

theorem rs_old {f : File} (h : Update.Task RsWitness.codec .v17 demoOwner (some demoDpb) (List.replicate 1000 7) (Update.payloadOf Update.fieldsC) f
    (Update.nameParam (some 3))) {k : Nat} (hk : k ∈ metaCopies (some true) (some demoDpb)) :
    piece .v17 f k = blockBytes .v17 demoOwner.bytes 0 (Update.payloadOf Update.fieldsC) := h.container.metas k hk

open Classical in
/-- **C49 is violated by `update`.** Six bytes are taken of every write.  Three changed metadata blocks are reported, but there is no
readable one left. -/
theorem C49_update_violated : ∃ f, Update.Task RsWitness.codec .v17 demoOwner (some demoDpb) (List.replicate 1000 7)
      (Update.payloadOf Update.fieldsC) f (Update.nameParam (some 3)) ∧
    (update sixBytes Update.calmEnv (Update.nameParam (some 3)) f).2 = some ⟨3, 0⟩ ∧
    ∀ k ∈ metaCopies (some true) (some demoDpb), ¬ ValidAt .v17 demoOwner (update sixBytes Update.calmEnv (Update.nameParam (some 3)) f).1 k := by
  obtain ⟨f, h⟩ := Update.rs_task
  have hbs := Update.rs_new Update.calmEnv.hash (List.replicate 1000 7)
  have hops := Update.Task.ops Update.calmEnv Update.calm.sticky Update.calm.lots h hbs
  have hbl : (blockBytes .v17 demoOwner.bytes 0 (Update.payloadOf Update.fieldsD)).length = blockLen .v17 :=
    Scan.isBlock_length (v := .v17) (uid := demoOwner) (seq := 0) (p := Update.payloadOf Update.fieldsD) ⟨rfl, (hbs.read h).1⟩
  have hin : ∀ w ∈ (Update.updateFile Update.calmEnv (Update.nameParam (some 3)) f).1.ops, ∃ k,
      w = (k * blockLen .v17, (fun _ => blockBytes .v17 demoOwner.bytes 0 (Update.payloadOf Update.fieldsD)) k) ∧
      ((fun _ => blockBytes .v17 demoOwner.bytes 0 (Update.payloadOf Update.fieldsD)) k).length = blockLen .v17 ∧ (k + 1) * blockLen .v17 ≤ f.length := by
    intro w hw
    obtain ⟨k, hk, rfl⟩ := hops w hw
    exact ⟨k, rfl, hbl, h.inside hk⟩
  have hall : ∀ k ∈ metaCopies (some true) (some demoDpb), ValidAt .v17 demoOwner f k := fun k hk =>
    ⟨0, Update.payloadOf Update.fieldsC, by rw [rs_old h hk]; exact ⟨rfl, h.block⟩⟩
  obtain ⟨dk, u1, -, u3, -⟩ := Update.Mixed.run Update.calmEnv Update.calm h hbs (Update.Mixed.refl h) (.inr hall) ⟨0, by decide, hall 0 (by decide)⟩
  rw [List.countP_eq_length.2 (fun k hk => decide_eq_true (hall k hk)), List.countP_eq_zero.2 (fun k hk => by simp [hall k hk])] at u1
  have hup := C49_update_container sixBytes Update.calmEnv Update.calm.sticky Update.calm.lots _ _ _ _ _ _ f _ h
  obtain ⟨g, hg⟩ := carriedOut_never (A := sixBytes) (by intro n bs h; cases h) (Update.updateFile Update.calmEnv (Update.nameParam (some 3)) f).1.ops 0 f
  rw [hg, u1] at hup
  rw [u1] at hin
  refine ⟨f, h, by rw [hup]; rfl, fun k hk => ?_⟩
  have hall' : WholeOrError (fun _ (bs : List Byte) => some bs.length) := by intro n bs k h; cases h; exact Nat.le_refl _
  obtain ⟨g', hg'⟩ := carriedOut_never (A := fun _ (bs : List Byte) => some bs.length) (by intro n bs h; cases h) dk.ops 0 f
  have hmem : (k * blockLen .v17, blockBytes .v17 demoOwner.bytes 0 (Update.payloadOf Update.fieldsD)) ∈ dk.ops := by
    rcases (left_torn (A := fun _ (bs : List Byte) => some bs.length) dk.ops 0 f hin).2 k with e | ⟨-, h1, -⟩
    · exfalso
      rw [left_some _ _ _ _ hg', carriedOut_whole hall' _ _ _ _ hg'] at e
      have hi := update_init Update.calmEnv (Update.nameParam (some 3)) f
      rw [u1] at hi
      have h6 := u3 k hk (hall k hk)
      unfold Disk.file at h6
      rw [hi, e, rs_old h hk] at h6
      have hp : IsBlock (blockBytes .v17 demoOwner.bytes 0 (Update.payloadOf Update.fieldsC)) .v17 demoOwner 0 (Update.payloadOf Update.fieldsD) :=
        ⟨h6, (hbs.read h).1⟩
      exact Update.rs_c.2.2 (isBlock_seq (p := Update.payloadOf Update.fieldsC) (p' := Update.payloadOf Update.fieldsD) ⟨rfl, h.block⟩ hp).2
    · exact h1
  rw [hup]
  have := left_const (m := 6) (by decide) dk.ops 0 f hin k hmem
  rintro ⟨sq, pl, hv⟩
  have hv : IsBlock (piece .v17 (left (fun _ _ => some 6) 0 f dk.ops) k) .v17 demoOwner sq pl := hv
  rw [this, rs_old h hk] at hv
  exact Update.torn_rs hv

/-- C49_update_refused, C49_update_partial, C49_update: the second of three writes is refused. -/
example : ∃ f dk, Update.updateFile Update.calmEnv (Update.nameParam (some 3)) (update (refuseAt 1) Update.calmEnv (Update.nameParam (some 3)) f).1 =
      (dk, .ok ⟨3, 0⟩) ∧ dk.file = (Update.updateFile Update.calmEnv (Update.nameParam (some 3)) f).1.file := by
  obtain ⟨f, h⟩ := Update.rs_task
  obtain ⟨dk, h1, h2⟩ := C49_update_refused (refuseAt 1) (refuseAt_whole 1) Update.calmEnv Update.calmEnv Update.calm.sticky Update.calm.lots rfl
    Update.calm _ _ _ _ _ _ f _ h
  exact ⟨f, dk, h1, h2⟩

/-- Of the writes only the first one, of six bytes. -/
theorem left_first (f : File) (ws : List (Nat × List Byte)) : left sixThenNone 0 f ws = f ∨
    ∃ pos bs, (pos, bs) ∈ ws ∧ left sixThenNone 0 f ws = f.writeAt pos (bs.take 6) := by
  rcases ws with _ | ⟨⟨pos, bs⟩, ws⟩
  · exact .inl rfl
  · refine .inr ⟨pos, bs, by simp, ?_⟩
    rcases ws with _ | ⟨⟨pos', bs'⟩, ws⟩ <;> rfl

open Classical in
/-- C49_update_again: `update` again after the first write took six bytes and the second one was refused. -/
example : ∃ f g dk, g = (update sixThenNone Update.calmEnv (Update.nameParam (some 3)) f).1 ∧
    Update.updateFile Update.calmEnv (Update.nameParam (some 3)) g = (dk, .ok
      ⟨(metaCopies (some true) (some demoDpb)).countP fun k => decide (ValidAt .v17 demoOwner g k),
      (metaCopies (some true) (some demoDpb)).countP fun k => decide (¬ ValidAt .v17 demoOwner g k)⟩) ∧
    dk.file.length = (Update.updateFile Update.calmEnv (Update.nameParam (some 3)) f).1.file.length := by
  obtain ⟨f, h⟩ := Update.rs_task
  have hbs := Update.rs_new Update.calmEnv.hash (List.replicate 1000 7)
  have hops := Update.Task.ops Update.calmEnv Update.calm.sticky Update.calm.lots h hbs
  have hup := C49_update_container sixThenNone Update.calmEnv Update.calm.sticky Update.calm.lots _ _ _ _ _ _ f _ h
  have hbl : (blockBytes .v17 demoOwner.bytes 0 (Update.payloadOf Update.fieldsD)).length = blockLen .v17 :=
    Scan.isBlock_length (v := .v17) (uid := demoOwner) (seq := 0) (p := Update.payloadOf Update.fieldsD) ⟨rfl, (hbs.read h).1⟩
  obtain ⟨g, hg⟩ : ∃ g, g = (update sixThenNone Update.calmEnv (Update.nameParam (some 3)) f).1 := ⟨_, rfl⟩
  have hg' := hg
  rw [hup] at hg'
  have hplaces : ∃ j, (∀ k, k ≠ j → piece .v17 g k = piece .v17 f k) ∧ (piece .v17 g j = piece .v17 f j ∨
      ∀ uid seq payload, ¬ IsBlock (piece .v17 g j) .v17 uid seq payload) := by
    rcases left_first f (Update.updateFile Update.calmEnv (Update.nameParam (some 3)) f).1.ops with e | ⟨pos, bs, hw, e⟩
    · rw [hg', e]
      exact ⟨0, fun _ _ => rfl, .inl rfl⟩
    · obtain ⟨j, hj, ew⟩ := hops _ hw
      simp only [Prod.mk.injEq] at ew
      obtain ⟨rfl, rfl⟩ := ew
      obtain ⟨-, p2, p3⟩ := piece_short (v := .v17) (f := f) (j := j) (h.inside hj)
        ((blockBytes .v17 demoOwner.bytes 0 (Update.payloadOf Update.fieldsD)).take 6) (by rw [List.length_take]; omega)
      rw [hg', e]
      refine ⟨j, p3, .inr fun uid seq q => ?_⟩
      rw [p2, rs_old h hj, List.length_take, hbl]
      exact Update.torn_rs
  obtain ⟨j, o1, o2⟩ := hplaces
  have hvalid : ∀ k ∈ metaCopies (some true) (some demoDpb), k ≠ j → ValidAt .v17 demoOwner g k := fun k hk hkj =>
    ⟨0, Update.payloadOf Update.fieldsC, by rw [o1 k hkj, rs_old h hk]; exact ⟨rfl, h.block⟩⟩
  obtain ⟨dk, q1, q2, -⟩ := C49_update_again sixThenNone (fun n bs k hk => by
      unfold sixThenNone at hk
      split at hk
      · cases hk; exact .inr (.inl (by omega))
      · cases hk) Update.calmEnv Update.calmEnv Update.calm.sticky Update.calm.lots rfl Update.calm _ _ _ _ _ _ f _ h _ hbs g hg
    (fun k => by
      by_cases hk : k = j
      · subst hk
        rcases o2 with e | e
        · exact .inl e
        · exact .inr (.inr e)
      · exact .inl (o1 k hk)) (.inl (by intro d hd; cases hd; rfl)) (by
      by_cases hj : j = 0
      · exact ⟨4, by decide, hvalid 4 (by decide) (by omega)⟩
      · exact ⟨0, by decide, hvalid 0 (by decide) (by omega)⟩)
  exact ⟨f, g, dk, hg, q1, q2⟩

end

end Verif.Device
