import Verif.Lemmas.DeviceRun
import Verif.Lemmas.DecodeStats
/-!
# Standard output that takes a part of what it is given; the lengths of the writes of `sort`
-/

namespace Verif.Device
open BlockRing DeviceSpec

theorem arrives_snoc (A : Answers) (bs : List Byte) (ws : List (List Byte)) : ∀ n out, arrives A n ws = some out →
    arrives A n (ws ++ [bs]) = (A (n + ws.length) bs).map fun k => out ++ bs.take k := by
  induction ws with
  | nil =>
    intro n out h
    simp only [arrives, Option.some.injEq] at h
    subst h
    simp only [List.nil_append, arrives, List.length_nil, Nat.add_zero]
    cases A n bs <;> simp
  | cons w ws ih =>
    intro n out h
    simp only [arrives] at h
    cases hk : A n w with
    | none => rw [hk] at h; simp at h
    | some k =>
      rw [hk] at h
      cases ho : arrives A (n + 1) ws with
      | none => rw [ho] at h; simp at h
      | some o =>
        rw [ho] at h
        simp only [Option.some.injEq] at h
        subst h
        simp only [List.cons_append, arrives, hk, ih (n + 1) o ho, List.length_cons]
        rw [show n + 1 + ws.length = n + (ws.length + 1) by omega]
        cases A (n + (ws.length + 1)) bs <;> simp

theorem arrives_whole {A : Answers} (hA : WholeOrError A) (ws : List (List Byte)) : ∀ n out, arrives A n ws = some out →
    out = ws.flatten := by
  induction ws with
  | nil => intro n out h; simp only [arrives, Option.some.injEq] at h; rw [← h]; rfl
  | cons w ws ih =>
    intro n out h
    simp only [arrives] at h
    cases hk : A n w with
    | none => rw [hk] at h; simp at h
    | some k =>
      rw [hk] at h
      cases ho : arrives A (n + 1) ws with
      | none => rw [ho] at h; simp at h
      | some o =>
        rw [ho] at h
        simp only [Option.some.injEq] at h
        rw [← h, ih _ _ ho, List.take_of_length_le (hA _ _ _ hk), List.flatten_cons]

/-! ### The bytes in the slots -/

/-- All slots have at most `L` bytes. -/
def Fit (L : Nat) (b : Buffer) : Prop := ∀ l ∈ b.lots, ∀ s ∈ l.slots, s.data.length ≤ L

theorem Fit.getSlot {L : Nat} {b b' : Buffer} {o : Option (Nat × Nat)} (h : Fit L b) (e : b.getSlot = (b', o)) : Fit L b' := by
  unfold Buffer.getSlot at e
  split at e
  · simp only [Prod.mk.injEq] at e; rw [← e.1]; exact h
  · rename_i l hl
    split at e
    · simp only [Prod.mk.injEq] at e; rw [← e.1]; exact h
    · rename_i l' last hg
      simp only [Prod.mk.injEq] at e
      rw [← e.1]
      intro x hx s hs
      have hx' : x ∈ b.lots.set b.lotsUsed l' := by
        revert hx; split <;> exact id
      rcases List.mem_or_eq_of_mem_set hx' with hx' | rfl
      · exact h x hx' s hs
      · refine h l (List.mem_of_getElem? hl) s ?_
        unfold Lot.getSlot at hg
        split at hg
        · simp only [Option.some.injEq, Prod.mk.injEq] at hg; rw [← hg.1] at hs; exact hs
        · simp at hg

theorem mem_modify {α : Type} {f : α → α} {l : List α} {i : Nat} {x : α} (h : x ∈ l.modify i f) : x ∈ l ∨ ∃ y ∈ l, x = f y := by
  obtain ⟨j, hj⟩ := List.mem_iff_getElem?.1 h
  rw [List.getElem?_modify, Option.map_eq_map, Option.map_eq_some_iff] at hj
  obtain ⟨y, hy, hx⟩ := hj
  have hm := List.mem_of_getElem? hy
  split at hx
  · exact .inr ⟨y, hm, hx.symm⟩
  · exact .inl (by rw [← hx]; exact hm)

theorem Fit.update {L : Nat} {b : Buffer} (h : Fit L b) (place : Nat × Nat) {f : Slot → Slot}
    (hf : ∀ s, s.data.length ≤ L → (f s).data.length ≤ L) : Fit L (b.update place f) := by
  intro l hl s hs
  unfold Buffer.update at hl
  rcases mem_modify hl with hl | ⟨l', hl', rfl⟩
  · exact h l hl s hs
  · rcases mem_modify hs with hs | ⟨s', hs', rfl⟩
    · exact h l' hl' s hs
    · exact hf s' (h l' hl' s' hs')

theorem Fit.fill {L : Nat} {b b' : Buffer} (h : Fit L b) {f : Slot → Slot} (hf : ∀ s, s.data.length ≤ L → (f s).data.length ≤ L)
    (e : b.fill f = some b') : Fit L b' := by
  unfold Buffer.fill at e
  split at e
  · simp at e
  · rename_i b1 place hg
    simp only [Option.some.injEq] at e
    rw [← e]
    exact (h.getSlot hg).update place hf

theorem Fit.slotAt {L : Nat} {b : Buffer} (h : Fit L b) {s : Slot} (e : slotAt b = some s) : s.data.length ≤ L := by
  unfold BlockRing.slotAt at e
  split at e
  · simp at e
  · rename_i b1 place hg
    rw [Option.bind_eq_some_iff] at e
    obtain ⟨l, h1, h2⟩ := e
    exact h.getSlot hg l (List.mem_of_getElem? h1) s (List.mem_of_getElem? h2)

theorem Fit.cancelSlot {L : Nat} {b b' : Buffer} (h : Fit L b) (e : b.cancelSlot = some b') : Fit L b' := by
  unfold Buffer.cancelSlot at e
  split at e
  · simp at e
  · simp at e
  · simp only at e
    split at e
    · simp at e
    · rename_i l hl
      split at e
      · simp at e
      · rename_i l' hc
        simp only [Option.some.injEq] at e
        rw [← e]
        intro x hx s hs
        rcases List.mem_or_eq_of_mem_set hx with hx | rfl
        · exact h x hx s hs
        · unfold Lot.cancelSlot at hc
          split at hc
          · simp only [Option.some.injEq] at hc
            rw [← hc] at hs
            rcases mem_modify hs with hs | ⟨y, hy, rfl⟩
            · exact h l (List.mem_of_getElem? hl) s hs
            · exact h l (List.mem_of_getElem? hl) y hy
          · simp at hc

theorem Fit.reset {L : Nat} {b : Buffer} (h : Fit L b) : Fit L b.reset := by
  intro l hl s hs
  simp only [Buffer.reset, List.mem_map] at hl
  obtain ⟨l', hl', rfl⟩ := hl
  simp only [Lot.reset, List.mem_map] at hs
  obtain ⟨s', hs', rfl⟩ := hs
  exact h l' hl' s' hs'

theorem Fit.calc {L : Nat} {b : Buffer} (h : Fit L b) : Fit L b.calcSlotWritePos := by
  intro l hl s hs
  simp only [Buffer.calcSlotWritePos, List.mem_map] at hl
  obtain ⟨l', hl', rfl⟩ := hl
  simp only [Lot.calcSlotWritePos, Lot.mapBelow, List.mem_mapIdx] at hs
  obtain ⟨i, hi, rfl⟩ := hs
  have := h l' hl' _ (List.getElem_mem hi)
  split <;> exact this

theorem Fit.new {c : LotCfg} {n N : Nat} {b : Buffer} (hb : b ∈ Buffer.newMulti c n N) : Fit c.version.blockSize b := by
  simp only [Buffer.newMulti, List.mem_map] at hb
  obtain ⟨i, -, rfl⟩ := hb
  intro l hl s hs
  simp only [Buffer.new, List.mem_replicate] at hl
  rw [hl.2] at hs
  simp only [Lot.new, List.mem_replicate] at hs
  rw [hs.2]
  simp [Slot.fresh]

/-- The reader does not make slots longer. -/
def Keeps {R : Type} (L : Nat) (act : R → Act R) : Prop :=
  ∀ r g, act r = .slot g → ∀ s : Slot, s.data.length ≤ L → (g s).2.1.data.length ≤ L

theorem Fit.fillLoop {R : Type} {L : Nat} {act : R → Act R} (ha : Keeps L act) : ∀ fuel r (b : Buffer) r' run b', Fit L b →
    fillLoop act fuel r b = some (r', run, b') → Fit L b' := by
  intro fuel
  induction fuel with
  | zero => intro r b r' run b' _ e; simp [BlockRing.fillLoop] at e
  | succ fuel ih =>
    intro r b r' run b' h e
    rw [BlockRing.fillLoop] at e
    split at e
    · simp only [Option.some.injEq, Prod.mk.injEq] at e; rw [← e.2.2]; exact h
    · split at e
      · simp only [Option.some.injEq, Prod.mk.injEq] at e; rw [← e.2.2]; exact h
      · rename_i g hg
        split at e
        · simp at e
        · rename_i s hs
          have hgs := ha r g hg s (h.slotAt hs)
          split at e
          · simp at e
          · rename_i b1 hf
            have h1 := h.fill (fun _ _ => hgs) hf
            split at e
            · simp at e
            · rename_i b2 hc
              have h2 : Fit L b2 := by
                split at hc
                · exact h1.cancelSlot hc
                · simp only [Option.some.injEq] at hc; rw [← hc]; exact h1
              split at e
              · exact ih _ _ _ _ _ h2 e
              · simp only [Option.some.injEq, Prod.mk.injEq] at e; rw [← e.2.2]; exact h2

theorem expect_len (f : File) (pos : Nat) (ref : Block) (seq : Nat) (s : Slot) :
    (Decode.expect f pos ref seq s).1.data.length = s.data.length := by
  have hl : (f.readAt pos s.data.length ++ s.data.drop (f.readAt pos s.data.length).length).length = s.data.length := by
    have : (f.readAt pos s.data.length).length ≤ s.data.length := by unfold File.readAt; rw [List.length_take]; exact Nat.min_le_left _ _
    rw [List.length_append, List.length_drop]; omega
  unfold Decode.expect
  simp only
  split
  · exact hl
  · split <;> exact hl

theorem dropSlot_len (st : Decode.Stats) (last : Bool) (r : Decode.OutSt) (s : Slot) : (Decode.dropSlot st last r s).2.1 = s := by
  unfold Decode.dropSlot; split <;> rfl

theorem dataSlot_len (ref : Block) (seq : Nat) (ok last : Bool) (r : Decode.OutSt) (s : Slot) :
    (Decode.dataSlot ref seq ok last r s).2.1.data.length = s.data.length := by
  have h : (if ok then s else Decode.blank ref seq s).data.length = s.data.length := by
    split
    · rfl
    · exact (Decode.blank_len ref seq s).1
  unfold Decode.dataSlot
  simp only
  generalize (if ok then s else Decode.blank ref seq s) = s1 at h
  repeat' split
  all_goals exact h

theorem burst_keeps (L : Nat) (stop : Nat → Bool) (f : File) (ref : Block) (d : Dpb) : Keeps L (Decode.burstAct stop f ref d) := by
  intro r g hg s hs
  unfold Decode.burstAct at hg
  split at hg
  · cases hg
  · cases hg
    have he := expect_len f (Layout.dataWritePos ref.header.version r.next none (some d)) ref r.next s
    simp only
    generalize Decode.expect f (Layout.dataWritePos ref.header.version r.next none (some d)) ref r.next s = e at he
    obtain ⟨s', w, ok⟩ := e
    simp only at he ⊢
    split
    · rw [dropSlot_len]; omega
    · rw [dataSlot_len]; omega

theorem seq_keeps (L : Nat) (stop : Nat → Bool) (f : File) (seekTo required : Nat) (ref : Block) (dpb : Option Dpb) :
    Keeps L (Decode.seqAct stop f seekTo required ref dpb) := by
  intro r g hg s hs
  unfold Decode.seqAct at hg
  split at hg
  · cases hg
  · split at hg
    · cases hg
    · cases hg
      have he := expect_len f (seekTo + r.processed) ref (Layout.seqAtIndex r.next (some true) dpb) s
      simp only
      generalize Decode.expect f (seekTo + r.processed) ref (Layout.seqAtIndex r.next (some true) dpb) s = e at he
      obtain ⟨s', w, ok⟩ := e
      simp only at he ⊢
      split
      · simp only; omega
      · split
        · rw [dropSlot_len]; omega
        · split
          · rw [dropSlot_len]; omega
          · rw [dataSlot_len]; omega

theorem slotBytes_le (c : LotCfg) (s : Slot) : (Lot.slotBytes c s).length ≤ s.data.length := by
  unfold Lot.slotBytes Lot.payloadOf
  split
  · split
    · rw [List.length_drop]; omega
    · rw [List.length_take, List.length_drop]; omega
  · exact Nat.le_refl _

/-! ### What arrives -/

/-- What has arrived is what the answers make of the pieces written, which together are `out`; no piece is longer than `L`. -/
def SinkRel (A : Os) (L : Nat) (d : Sink) (out : List Byte) : Prop :=
  ∃ chunks : List (List Byte), chunks.flatten = out ∧ arrives A 0 chunks = some d.bytes ∧ d.calls = chunks.length ∧
    ∀ c ∈ chunks, c.length ≤ L

theorem sink_write {A : Os} {L : Nat} {d d' : Sink} {out bs : List Byte} (hb : bs.length ≤ L) (h : SinkRel A L d out)
    (e : d.write A bs = some d') : SinkRel A L d' (out ++ bs) := by
  obtain ⟨cs, h1, h2, h3, h4⟩ := h
  unfold Sink.write at e
  refine ⟨cs ++ [bs], by simp [h1], ?_, ?_, ?_⟩
  · rw [arrives_snoc A bs cs 0 _ h2, Nat.zero_add, ← h3]
    cases hk : A d.calls bs with
    | none => rw [hk] at e; simp at e
    | some k =>
      rw [hk] at e
      simp only [Option.some.injEq] at e
      rw [← e]; rfl
  · cases hk : A d.calls bs with
    | none => rw [hk] at e; simp at e
    | some k =>
      rw [hk] at e
      simp only [Option.some.injEq] at e
      rw [← e]; simp [h3]
  · intro c hc
    rcases List.mem_append.1 hc with hc | hc
    · exact h4 c hc
    · rw [List.mem_singleton.1 hc]; exact hb

theorem sink_slots {A : Os} {L : Nat} {c : LotCfg} (ss : List Slot) : ∀ {d d' : Sink} {out : List Byte}, (∀ s ∈ ss, s.data.length ≤ L) →
    SinkRel A L d out → ss.foldlM (emitSlot A c) d = some d' → SinkRel A L d' (out ++ ss.flatMap (Lot.emitSlot c)) := by
  induction ss with
  | nil => intro d d' out _ h e; simp only [List.foldlM_nil, Option.pure_def, Option.some.injEq] at e; subst e; simpa using h
  | cons s ss ih =>
    intro d d' out hl h e
    rw [List.foldlM_cons] at e
    simp only [Option.bind_eq_bind, Option.bind_eq_some_iff] at e
    obtain ⟨d1, e1, e2⟩ := e
    have h1 : SinkRel A L d1 (out ++ Lot.emitSlot c s) := by
      unfold emitSlot at e1
      unfold Lot.emitSlot
      cases hw : s.writePos with
      | none => rw [hw] at e1; simp only [Option.some.injEq] at e1; subst e1; simpa using h
      | some pos => rw [hw] at e1; exact sink_write (Nat.le_trans (slotBytes_le c s) (hl s List.mem_cons_self)) h e1
    have := ih (fun x hx => hl x (List.mem_cons_of_mem _ hx)) h1 e2
    simpa [List.append_assoc] using this

theorem sink_lots {A : Os} {L : Nat} (ls : List Lot) : ∀ {d d' : Sink} {out : List Byte}, (∀ l ∈ ls, ∀ s ∈ l.slots, s.data.length ≤ L) →
    SinkRel A L d out → ls.foldlM (emitLot A) d = some d' → SinkRel A L d' (out ++ ls.flatMap Lot.emit) := by
  induction ls with
  | nil => intro d d' out _ h e; simp only [List.foldlM_nil, Option.pure_def, Option.some.injEq] at e; subst e; simpa using h
  | cons l ls ih =>
    intro d d' out hl h e
    rw [List.foldlM_cons] at e
    simp only [Option.bind_eq_bind, Option.bind_eq_some_iff] at e
    obtain ⟨d1, e1, e2⟩ := e
    have hu : ∀ s ∈ l.used, s.data.length ≤ L := fun s hs => hl l List.mem_cons_self s (List.mem_of_mem_take hs)
    have := ih (fun x hx => hl x (List.mem_cons_of_mem _ hx)) (sink_slots _ hu h e1) e2
    simpa [List.append_assoc, Lot.emit] using this

theorem slots_never {A : Os} (hA : NeverError A) {c : LotCfg} (ss : List Slot) : ∀ d : Sink, ss.foldlM (emitSlot A c) d ≠ none := by
  induction ss with
  | nil => intro d h; cases h
  | cons s ss ih =>
    intro d h
    rw [List.foldlM_cons] at h
    cases hd : emitSlot A c d s with
    | none =>
      unfold emitSlot at hd
      split at hd
      · cases hd
      · unfold Sink.write at hd
        split at hd
        · rename_i hk; exact hA _ _ hk
        · cases hd
    | some d' => rw [hd] at h; exact ih d' h

theorem lots_never {A : Os} (hA : NeverError A) (ls : List Lot) : ∀ d : Sink, ls.foldlM (emitLot A) d ≠ none := by
  induction ls with
  | nil => intro d h; cases h
  | cons l ls ih =>
    intro d h
    rw [List.foldlM_cons] at h
    cases hd : emitLot A d l with
    | none => exact slots_never hA _ _ hd
    | some d' => rw [hd] at h; exact ih d' h

/-- Either the command with the answers `A` reports an error (and then an answer was an error, or the fault-free command reports one
too), or both have the same result, except for what has arrived. -/
def SinkBoth {R : Type} (A : Os) (L : Nat) (x : Option (R × Sink × Sink)) (y : Option (R × List Byte × List Byte)) : Prop :=
  (x = none ∧ (NeverError A → y = none)) ∨
    ∃ r hs out bytes, x = some (r, hs, out) ∧ y = some (r, hs.bytes, bytes) ∧ SinkRel A L out bytes

theorem run3_sink (A : Os) (L : Nat) {R : Type} (cap : Nat) (act : R → Act R) (fuel : Nat)
    (mid : List Byte → Buffer → Option (List Byte × Buffer)) (r : R) (bufs : List Buffer) (ha : Keeps L act)
    (hm : ∀ x b y b', mid x b = some (y, b') → b' = b) (hb : ∀ b ∈ bufs, Fit L b) :
    SinkBoth A L (run3 cap act fuel (collecting mid) (sinkWriter A) r ⟨[], 0⟩ bufs) (run3 cap act fuel mid stdoutWriter r [] bufs) := by
  have hsim : Pipeline.SimTo (ring3 cap act fuel (collecting mid) (sinkWriter A)) (ring3 cap act fuel mid stdoutWriter)
      (fun i (s : St R Sink) (s' : St R (List Byte)) => s.rd = s'.rd ∧ s.run = s'.run ∧ s.panicked = s'.panicked ∧
        (i = 1 → s.con.bytes = s'.con) ∧ (i = 2 → SinkRel A L s.con s'.con))
      (fun i _ => i = 2 ∧ ¬ NeverError A) (Fit L) := by
    refine ⟨?_, fun _ _ _ h => h, ?_⟩
    rotate_left
    · intro i s' m hf outs ho x hx
      simp only [ring3] at ho
      by_cases hi0 : i = 0
      · rw [if_pos hi0] at ho
        unfold readerStep at ho
        split at ho
        · cases ho
        · split at ho
          · cases ho
          · rename_i r1 run b1 hfl
            cases ho
            rw [List.mem_singleton.1 hx]
            exact Fit.fillLoop ha _ _ _ _ _ _ hf hfl
      · rw [if_neg hi0] at ho
        by_cases hi1 : i = 1
        · rw [if_pos hi1] at ho
          unfold consumerStep at ho
          split at ho
          · cases ho
          · rename_i c b1 hmb
            cases ho
            rw [List.mem_singleton.1 hx, hm _ _ _ _ hmb]
            exact hf
        · rw [if_neg hi1] at ho
          cases ho
          rw [List.mem_singleton.1 hx]
          exact hf.calc.reset
    intro i s s' m hf0 hr
    obtain ⟨h1, h2, h3, h4, h5⟩ := hr
    simp only [ring3]
    by_cases hi0 : i = 0
    · right
      rw [if_pos hi0, if_pos hi0]
      unfold readerStep
      rw [h1, h2]
      split
      · exact ⟨rfl, h1, h2, h3, h4, h5⟩
      · split
        · exact ⟨rfl, rfl, rfl, rfl, h4, h5⟩
        · exact ⟨rfl, rfl, rfl, h3, h4, h5⟩
    · rw [if_neg hi0, if_neg hi0]
      by_cases hi1 : i = 1
      · right
        rw [if_pos hi1, if_pos hi1]
        unfold consumerStep collecting
        rw [h4 hi1]
        cases hm : mid s'.con m with
        | none => exact ⟨rfl, h1, h2, rfl, h4, h5⟩
        | some x =>
          refine ⟨rfl, h1, h2, h3, fun _ => rfl, fun h => absurd h ?_⟩
          rw [hi1]; decide
      · rw [if_neg hi1, if_neg hi1]
        have hi2 : i = 2 := fin3 i hi0 hi1
        unfold consumerStep sinkWriter stdoutWriter
        cases hf : m.calcSlotWritePos.lots.foldlM (emitLot A) s.con with
        | none => exact .inl ⟨rfl, hi0, hi2, fun hA => lots_never hA _ _ hf⟩
        | some d =>
          exact .inr ⟨rfl, h1, h2, h3, fun h => absurd h hi1, fun _ => sink_lots _ hf0.calc (h5 hi2) hf⟩
  unfold run3
  rcases hsim.runSeq (fuel + 1) (fun _ => ⟨r, true, ⟨[], 0⟩, false⟩) (fun _ => ⟨r, true, [], false⟩) bufs hb
    (fun _ => ⟨rfl, rfl, rfl, fun _ => rfl, fun _ => ⟨[], rfl, rfl, rfl, by simp⟩⟩) with ⟨e1, e2⟩ | ⟨a, b, e1, e2, e3⟩
  · rw [e1]
    refine .inl ⟨rfl, fun hA => ?_⟩
    cases hb : (ring3 cap act fuel mid stdoutWriter).runSeq (fuel + 1) (fun _ => ⟨r, true, [], false⟩) bufs with
    | none => rfl
    | some b =>
      obtain ⟨i, -, hi⟩ := e2 b hb
      exact absurd hA hi
  · rw [e1, e2]
    obtain ⟨a1, -, a3, -⟩ := e3 0
    obtain ⟨-, -, b3, b4, -⟩ := e3 1
    obtain ⟨-, -, c3, -, c5⟩ := e3 2
    simp only [a3, b3, c3]
    split
    · exact .inl ⟨rfl, fun _ => rfl⟩
    · exact .inr ⟨_, _, _, _, rfl, by rw [a1, b4 rfl], c5 rfl⟩

theorem midThread_same (ref : Block) : ∀ x b y b', Decode.midThread ref x b = some (y, b') → b' = b := by
  intro x b y b' h
  unfold Decode.midThread at h
  cases ht : Decode.hashTypeOf ref with
  | some _ =>
    rw [ht] at h
    simp only at h
    unfold hasher at h
    rw [Option.map_eq_some_iff] at h
    obtain ⟨z, -, h⟩ := h
    simp only [Prod.mk.injEq] at h
    exact h.2.symm
  | none =>
    rw [ht] at h
    simp only [Option.some.injEq, Prod.mk.injEq] at h
    exact h.2.symm

theorem outThreads_sink (A : Os) (E : Decode.Env) (p : Decode.Param) (ref : Block) (f : File) (dpb : Option Dpb) (fuel : Nat) :
    SinkBoth A ref.header.version.blockSize (outThreads A E p ref f dpb (Decode.midThread ref) fuel)
      (Decode.outThreads E p ref f dpb (Decode.midThread ref) fuel) := by
  unfold outThreads Decode.outThreads
  cases dpb <;> cases hf : p.ref.fromPos <;> cases ht : p.ref.toPos <;> simp only <;>
    refine run3_sink A _ _ _ _ _ _ _ ?_ (midThread_same ref) (fun b hb => Fit.new hb) <;>
    first | exact burst_keeps _ _ _ _ _ | exact seq_keeps _ _ _ _ _ _ _

theorem decodeStdout_both (A : Os) (E : Decode.Env) (p : Decode.Param) (ref : Block) (f : File) :
    (decodeStdout A E p ref f = none ∧ (NeverError A → ∀ x, Decode.decodeStdout E p ref f ≠ .ok x)) ∨
      ∃ chunks out st h, decodeStdout A E p ref f = some (out, st, h) ∧ Decode.decodeStdout E p ref f = .ok (chunks.flatten, st, h) ∧
        arrives A 0 chunks = some out ∧ ∀ c ∈ chunks, c.length ≤ ref.header.version.blockSize := by
  unfold decodeStdout Decode.decodeStdout
  cases hd : Scan.dataParBurst p.ref true f ref with
  | error x => exact .inl ⟨rfl, fun _ _ h => by cases h⟩
  | ok dpb =>
    simp only
    rcases outThreads_sink A E p ref f dpb (2 ^ 32 + f.length + 3) with
      ⟨e1, e2⟩ | ⟨st, hs, out, bytes, e1, e2, chunks, e3, e4, -, e5⟩
    · rw [e1]
      exact .inl ⟨rfl, fun hA x h => by rw [e2 hA] at h; cases h⟩
    · rw [e1, e2]
      exact .inr ⟨chunks, _, _, _, rfl, by rw [e3], e4, e5⟩

/-! ### `decode` to a file -/

theorem decodeFile_both {A : Os} {rel : Plain → Disk → Prop} {bad ok : Disk → Prop} {reads : Bool} (h : DevSim (plain A) rel bad ok reads)
    (E : Decode.Env) (p : Decode.Param) (hs : (p.multiPass == some .skipGood) = true → reads = true) (ref : Block) (f old : File)
    (hr : rel ⟨Decode.openOut p.multiPass old, 0⟩ ⟨Decode.openOut p.multiPass old, []⟩) :
    (decodeFile A E p ref f old = none ∧ ∀ x, Decode.decodeFile E p ref f old = .ok x → ∃ k, bad k) ∨
      ∃ d' k' st, decodeFile A E p ref f old = some (Decode.truncated ref d'.file, st) ∧
        Decode.decodeFile E p ref f old = .ok (Decode.truncated ref k'.file, st) ∧ rel d' k' := by
  unfold decodeFile Decode.decodeFile
  cases hb : Scan.dataParBurst p.ref true f ref with
  | error x => exact .inl ⟨rfl, fun _ h => by cases h⟩
  | ok dpb =>
    simp only
    rcases run2_both h (Encode.buffersInRotation + 1) (Decode.fileAct E.stop f (Decode.rangeOf p.ref ref f).seekTo
      (Decode.rangeOf p.ref ref f).requiredLen ref dpb) (f.length + 3) ⟨0, 0, Decode.Stats.zero⟩ ⟨Decode.openOut p.multiPass old, 0⟩
      ⟨Decode.openOut p.multiPass old, []⟩
      (Buffer.newMulti (Decode.cfg ref dpb (p.multiPass == some .skipGood)) E.lotCount Encode.buffersInRotation)
      (fun b hb => newMulti_skip hb hs) hr with ⟨e1, e2⟩ | ⟨r', d', k', e1, e2, e3⟩
    · rw [e1]
      refine .inl ⟨rfl, fun x hx => ?_⟩
      split at hx
      · cases hx
      · rename_i st d hrun
        exact ⟨d, e2 _ _ hrun⟩
    · rw [e1, e2]
      exact .inr ⟨d', k', r'.stats, rfl, rfl, e3⟩

/-! ### The writes of `sort` -/

theorem Short.writeAt {k : Disk} (h : Short k) (pos : Nat) {bs : List Byte} (hb : bs.length ≤ largestBlockSize) : Short (k.writeAt pos bs) := by
  intro w hw
  simp only [Disk.writeAt, List.mem_append, List.mem_singleton] at hw
  rcases hw with hw | rfl
  · exact h w hw
  · exact hb

theorem blockLen_le (v : Version) : Format.blockLen v ≤ largestBlockSize := by cases v <;> decide

open Verif.Sort in
theorem wr_short {ref : Block} {dpb : Option Dpb} {skip : Bool} {l : List (Nat × Nat × List Byte)}
    (hl : ∀ x ∈ l, ∀ v (uid : Uid) s, (Format.blockBytes v uid.bytes s x.2.2).length ≤ largestBlockSize)
    {ss : List Slot} (hk : Kept (Sort.cfg ref dpb skip) (l.map (loadedAt ref.header.version ref.header.uid)) ss) :
    ∀ d : Disk, Short d → Short (ss.foldl (wr (Sort.cfg ref dpb skip)) d) := by
  induction l generalizing ss with
  | nil => intro d h; cases hk; exact h
  | cons x l ih =>
    intro d h
    rw [List.map_cons] at hk
    cases hk with
    | cons h1 h2 =>
      obtain ⟨s0, -, rfl⟩ := h1
      rw [List.foldl_cons]
      refine ih (fun y hy => hl y (List.mem_cons_of_mem _ hy)) h2 _ ?_
      unfold wr Lot.writeSlot
      split
      · exact h
      · split
        · exact h
        · exact h.writeAt _ (hl x List.mem_cons_self _ _ _)

theorem writeMetas_short {ref : Block} {dpb : Option Dpb} {skip : Bool} {mb : List Byte} (hm : mb.length ≤ largestBlockSize) {d : Disk}
    (h : Short d) : Short (Sort.writeMetas ref dpb skip mb d) := by
  unfold Sort.writeMetas
  generalize Layout.metaAllPos ref.header.version dpb = ps
  induction ps generalizing d with
  | nil => exact h
  | cons p ps ih =>
    rw [List.foldl_cons]
    apply ih
    split
    · exact h.writeAt _ hm
    · exact h

theorem tally_short {ref : Block} {dpb : Option Dpb} {f : File} {start : Nat} {rb : Bool} (ks : List Nat) :
    ∀ a : Option (List Byte) × Sort.Stats, (∀ mb, a.1 = some mb → mb.length ≤ largestBlockSize) →
      ∀ mb, (ks.foldl (Sort.tally ref dpb f start rb) a).1 = some mb → mb.length ≤ largestBlockSize := by
  induction ks with
  | nil => intro a h; exact h
  | cons k ks ih =>
    intro a h
    rw [List.foldl_cons]
    apply ih
    intro mb hmb
    unfold Sort.tally at hmb
    simp only at hmb
    split at hmb
    · exact h mb hmb
    · split at hmb
      · simp only [Option.or_eq_some_iff, Option.some.injEq] at hmb
        rcases hmb with hmb | ⟨-, rfl⟩
        · exact h mb hmb
        · exact Nat.le_trans (by unfold File.readAt; rw [List.length_take]; exact Nat.min_le_left _ _) (blockLen_le ref.header.version)
      · exact h mb hmb

open Verif.Sort in
theorem wr_init (c : LotCfg) (ss : List Slot) : ∀ d : Disk, (ss.foldl (wr c) d).init = d.init := by
  induction ss with
  | nil => intro d; rfl
  | cons s ss ih =>
    intro d
    rw [List.foldl_cons, ih]
    unfold wr Lot.writeSlot
    split
    · rfl
    · split <;> rfl

theorem foldMetas_init (ref : Block) (dpb : Option Dpb) (skip : Bool) (ms : List (List Byte)) : ∀ d : Disk,
    (ms.foldl (fun d mb => Sort.writeMetas ref dpb skip mb d) d).init = d.init := by
  induction ms with
  | nil => intro d; rfl
  | cons mb ms ih =>
    intro d
    rw [List.foldl_cons, ih]
    unfold Sort.writeMetas
    generalize Layout.metaAllPos ref.header.version dpb = ps
    induction ps generalizing d with
    | nil => rfl
    | cons p ps ih =>
      rw [List.foldl_cons, ih]
      split <;> rfl

open Verif.Sort DecodeSpec in
theorem sortWith_short (E : Sort.Env) (hE : 0 < E.lotCount) (p : Sort.Param) (ref : Block) (dpb : Option Dpb) (f old : File) {k : Disk}
    {st : Sort.Stats} {ord : Sort.Order} (e : Sort.sortWith E p ref dpb f old = .ok (some k, st, ord)) :
    Short k ∧ k.init = Decode.openOut p.multiPass old := by
  set r := Decode.rangeOf p.ref ref f with hr
  set skip := p.multiPass == some Decode.MultiPass.skipGood with hskip
  obtain ⟨m, n, rF, h1, h2, h3, h4, h5⟩ := sort_runs E.stop f r.seekTo r.requiredLen ref dpb p.reportBlank (Sort.cfg ref dpb skip) rfl
    (places ref f r.seekTo r.requiredLen) 0 0 (none, Sort.Stats.zero) (by omega)
  have hpl : places ref f r.seekTo r.requiredLen ≤ f.length := by
    unfold places
    exact Nat.le_trans (Nat.min_le_right _ _) (Nat.le_trans (Nat.div_le_self _ _) (Nat.sub_le _ _))
  rw [Nat.zero_mul] at h4
  have hlt := dataAt_lt (ref := ref) (f := f) (start := r.seekTo) (ks := List.range' 0 m)
  set O : Option Disk := if p.toFile then some ⟨Decode.openOut p.multiPass old, []⟩ else none with hO
  obtain ⟨st', ssA, ssB, e', hk, k1, k2, k3, k4, k5, k6⟩ := sort_rounds (fuelI := f.length + 3) (cfg_pos ref dpb skip) hE
    (skip := skip) (readOffset := r.seekTo % ref.header.version.blockSize) n _ _ rF
    (fun _ => start O) (Buffer.newMulti (Sort.cfg ref dpb skip) E.lotCount Sort.buffersInRotation)
    (f.length + 4) h4 (by
      intro g hg s _ o
      obtain ⟨x, hx, rfl⟩ := List.mem_map.1 hg
      rw [countSlot_loaded (hlt x hx)]; simp) (by
      intro h'; have := congrArg List.length h'; simp [Buffer.newMulti, Sort.buffersInRotation] at this)
    (newMulti_idle (cfg_pos ref dpb skip) E.lotCount Sort.buffersInRotation) rfl rfl (by omega) (by omega)
  unfold Sort.sortWith at e
  simp only [← hr, ← hskip, ← hO] at e
  rw [e'] at e
  simp only [k2, k3, k4, k5, start, Bool.or_self, Bool.false_eq_true, if_false, Except.ok.injEq, Prod.mk.injEq] at e
  obtain ⟨e, -, -⟩ := e
  have hlen : ∀ x ∈ List.filterMap (dataAt ref f r.seekTo) (List.range' 0 m), ∀ v (uid : Uid) s,
      (Format.blockBytes v uid.bytes s x.2.2).length ≤ largestBlockSize := by
    intro x hx v uid s
    obtain ⟨i, -, hi⟩ := List.mem_filterMap.1 hx
    have hb := (Decode.look_some.1 (dataAt_some.1 hi).2.2).2
    have h16 := Scan.size_ge ref.header.version
    have hle := blockLen_le ref.header.version
    rw [blockBytes_length, hb.len]
    rw [← blockLen_eq] at h16
    omega
  have hmb : ∀ mb, rF.found = some mb → mb.length ≤ largestBlockSize := by
    intro mb h
    have h5' : rF.found = ((List.range' 0 m).foldl (tally ref dpb f r.seekTo p.reportBlank) (none, Sort.Stats.zero)).1 := by rw [← h5]
    exact tally_short (List.range' 0 m) (none, Sort.Stats.zero) (fun _ h => by cases h) mb (h5'.symm.trans h)
  obtain ⟨fa, fb, hfab, ka, kb⟩ := Kept.split hk
  rw [List.map_eq_append_iff] at hfab
  obtain ⟨la, lb, hAB, rfl, rfl⟩ := hfab
  rw [hAB] at hlen
  rw [hO] at e
  split at e
  · simp only [Option.map_some, Option.some.injEq] at e
    rw [← e]
    have hs0 : Short ⟨Decode.openOut p.multiPass old, []⟩ := by intro w hw; simp at hw
    have hs1 := wr_short (fun x hx => hlen x (List.mem_append_left _ hx)) ka _ hs0
    refine ⟨wr_short (fun x hx => hlen x (List.mem_append_right _ hx)) kb _ ?_, ?_⟩
    · simp only [sent]
      cases hfd : rF.found with
      | none => simpa using hs1
      | some mb => simpa using writeMetas_short (hmb mb hfd) hs1
    · rw [wr_init, foldMetas_init, wr_init]
  · simp at e

/-! ### Flushing -/

/-- If every call takes at least one byte, flushing succeeds. -/
theorem flushLoop_progress {A : Os} (hA : ∀ n bs, bs ≠ [] → ∃ k, A n bs = some (k + 1)) : ∀ fuel (d : Buffered), d.buf.length ≤ fuel →
    (d.flushLoop A fuel).2 = true := by
  intro fuel
  induction fuel with
  | zero =>
    intro d h
    have hb : d.buf = [] := List.eq_nil_of_length_eq_zero (by omega)
    unfold Buffered.flushLoop
    rw [hb]; rfl
  | succ fuel ih =>
    intro d h
    unfold Buffered.flushLoop
    by_cases hb : d.buf = []
    · rw [if_pos hb]
    · rw [if_neg hb]
      have hl : 0 < d.buf.length := List.length_pos_iff.2 hb
      obtain ⟨k, hk⟩ := hA d.calls d.buf hb
      rw [hk]
      apply ih
      simp only [List.length_drop]
      omega

/-! ### Keeping the initial contents in view -/

theorem plain_sim_from (A : Os) (reads : Bool) (hA : reads = true → WholeOrError A) (f0 : File) :
    DevSim (plain A) (fun d k => PlainRel A d k ∧ k.init = f0) (PlainBad A) (fun _ => True) reads where
  write d k pos bs h := by
    rcases (plain_sim A reads hA).write d k pos bs h.1 with h' | ⟨d', e1, e2⟩
    · exact .inl h'
    · exact .inr ⟨d', e1, e2, h.2⟩
  read hr d k pos len h := by
    rcases (plain_sim A reads hA).read hr d k pos len h.1 with h' | ⟨d', bs, e1, e2, e3⟩
    · exact .inl h'
    · exact .inr ⟨d', bs, e1, ⟨e2, h.2⟩, e3⟩
  bad_write := (plain_sim A reads hA).bad_write
  vacuous d k h := absurd trivial h
  ok_write _ _ _ _ := trivial

/-- A device that keeps nothing: the fault-free encoder starts with an empty file. -/
theorem encodeFile_init {E : Encode.Env} {p : Encode.Param} {inp : Encode.Input} {k : Disk} {rep : Encode.Report}
    (e : Encode.encodeFile E p inp = (k, .ok rep)) : k.init = [] := by
  have hs : DevSim (D := Unit) ⟨fun _ _ _ => some (), fun _ _ _ => some ((), [])⟩ (fun _ k => k.init = []) (fun _ => False)
      (fun _ => True) false :=
    ⟨fun _ k _ _ h => .inr ⟨(), rfl, h⟩, fun h => (by cases h), fun _ _ _ h => h, fun _ _ h => absurd trivial h, fun _ _ _ _ => trivial⟩
  rcases encodeTo_both hs E p inp () rfl with ⟨-, h⟩ | ⟨d, k', rep', -, h1, h2⟩
  · exact (h k rep e).elim
  · rw [h1] at e
    simp only [Prod.mk.injEq, Except.ok.injEq] at e
    rw [← e.1]; exact h2

end Verif.Device
