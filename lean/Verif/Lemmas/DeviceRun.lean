import Verif.Lemmas.DeviceSim
import Verif.Lemmas.Decode
import Verif.Lemmas.Sort
/-!
# The commands on the devices
-/

namespace Verif.Device
open BlockRing DeviceSpec

/-! ### Configurations stay -/

/-- The configurations of the lots. -/
abbrev cfgs (b : Buffer) : List LotCfg := b.lots.map (·.cfg)

theorem set_cfgs {lots : List Lot} {i : Nat} {l l' : Lot} (h : lots[i]? = some l) (hc : l'.cfg = l.cfg) :
    (lots.set i l').map (·.cfg) = lots.map (·.cfg) := by
  rw [List.map_set]
  apply List.ext_getElem?
  intro j
  rw [List.getElem?_set]
  split
  · rename_i hij
    subst hij
    rw [List.getElem?_map, h, hc]
    simp [(List.getElem?_eq_some_iff.1 h).1]
  · rfl

theorem modify_cfgs (lots : List Lot) (i : Nat) (g : Lot → Lot) (hg : ∀ l, (g l).cfg = l.cfg) :
    (lots.modify i g).map (·.cfg) = lots.map (·.cfg) := by
  apply List.ext_getElem?
  intro j
  rw [List.getElem?_map, List.getElem?_map, List.getElem?_modify, Option.map_eq_map]
  cases lots[j]? with
  | none => rfl
  | some l => simp only [Option.map_some]; split <;> simp [hg]

theorem fill_cfgs {b b' : Buffer} {f : Slot → Slot} (h : b.fill f = some b') : cfgs b' = cfgs b := by
  unfold Buffer.fill Buffer.getSlot at h
  split at h
  · simp at h
  · rename_i b1 place hg
    simp only [Option.some.injEq] at h
    subst h
    unfold cfgs Buffer.update
    simp only
    refine (modify_cfgs b1.lots place.1 (fun l => { l with slots := l.slots.modify place.2 f }) (fun _ => rfl)).trans ?_
    split at hg
    · simp at hg
    · rename_i l hl
      split at hg
      · simp at hg
      · rename_i l' last hs
        simp only [Prod.mk.injEq, Option.some.injEq] at hg
        obtain ⟨rfl, -⟩ := hg
        simp only
        apply set_cfgs hl
        unfold Lot.getSlot at hs
        split at hs
        · simp only [Option.some.injEq, Prod.mk.injEq] at hs
          rw [← hs.1]
        · simp at hs

theorem cancel_cfgs {b b' : Buffer} (h : b.cancelSlot = some b') : cfgs b' = cfgs b := by
  unfold Buffer.cancelSlot at h
  split at h
  · simp at h
  · simp at h
  · simp only at h
    split at h
    · simp at h
    · rename_i l hl
      split at h
      · simp at h
      · rename_i l' hc
        simp only [Option.some.injEq] at h
        subst h
        apply set_cfgs hl
        unfold Lot.cancelSlot at hc
        split at hc
        · simp only [Option.some.injEq] at hc
          rw [← hc]
        · simp at hc

theorem reset_cfgs (b : Buffer) : cfgs b.reset = cfgs b := by
  unfold cfgs Buffer.reset Lot.reset
  rw [List.map_map]
  rfl

theorem fillLoop_cfgs {R : Type} {act : R → Act R} : ∀ fuel r b r' run b', fillLoop act fuel r b = some (r', run, b') → cfgs b' = cfgs b := by
  intro fuel
  induction fuel with
  | zero => intro r b r' run b' h; simp [fillLoop] at h
  | succ fuel ih =>
    intro r b r' run b' h
    rw [fillLoop] at h
    split at h
    · simp only [Option.some.injEq, Prod.mk.injEq] at h; rw [← h.2.2]
    · split at h
      · simp only [Option.some.injEq, Prod.mk.injEq] at h; rw [← h.2.2]
      · split at h
        · simp at h
        · split at h
          · simp at h
          · rename_i b1 hf
            split at h
            · simp at h
            · rename_i b2 hc
              have h2 : cfgs b2 = cfgs b := by
                rw [← fill_cfgs hf]
                split at hc
                · exact cancel_cfgs hc
                · simp only [Option.some.injEq] at hc; rw [hc]
              split at h
              · rw [ih _ _ _ _ _ h, h2]
              · simp only [Option.some.injEq, Prod.mk.injEq] at h; rw [← h.2.2, h2]

theorem encodeFill_cfgs {p : Encode.Param} {stop : Nat → Bool} {required : Option Nat} {lastSeq : Nat} :
    ∀ fuel st b st' b', Encode.fillLoop p stop required lastSeq fuel st b = some (st', b') → cfgs b' = cfgs b := by
  intro fuel
  induction fuel with
  | zero => intro st b st' b' h; simp [Encode.fillLoop] at h
  | succ fuel ih =>
    intro st b st' b' h
    rw [Encode.fillLoop] at h
    split at h
    · simp only [Option.some.injEq, Prod.mk.injEq] at h; rw [← h.2]
    · split at h
      · simp at h
      · simp only [Option.some.injEq, Prod.mk.injEq] at h; rw [← h.2]
      · simp only [Option.map_eq_some_iff, Option.bind_eq_some_iff, Prod.mk.injEq] at h
        obtain ⟨b2, ⟨b1, h1, h2⟩, -, rfl⟩ := h
        rw [cancel_cfgs h2, fill_cfgs h1]
      · simp only [Option.map_eq_some_iff, Prod.mk.injEq] at h
        obtain ⟨b1, h1, -, rfl⟩ := h
        exact fill_cfgs h1
      · split at h
        · simp at h
        · rename_i b1 hf
          rw [ih _ _ _ _ h, fill_cfgs hf]

theorem encodeLot_cfg {rs : RsCodec} {l l' : Lot} {start : Nat} (h : l.encode rs start = some l') : l'.cfg = l.cfg := by
  unfold Lot.encode at h
  simp only [Option.bind_eq_some_iff] at h
  obtain ⟨l2, ⟨l1, h1, h2⟩, l3, h3, h4⟩ := h
  have e1 : l1.cfg = l.cfg := by
    unfold Lot.fillInPadding at h1
    split at h1
    · simp at h1
    · split at h1
      · simp only [Option.some.injEq] at h1; rw [h1]
      · split at h1
        · simp at h1
        · simp only at h1
          split at h1
          · simp only [Option.some.injEq] at h1; rw [← h1]
          · split at h1
            · simp only [Option.some.injEq] at h1; rw [← h1]
            · simp at h1
  have e2 : l2.cfg = l1.cfg := by
    unfold Lot.rsEncode at h2
    split at h2
    · simp at h2
    · split at h2
      · simp only [Option.some.injEq] at h2; rw [h2]
      · split at h2
        · simp only [Option.some.injEq] at h2; rw [← h2]
        · split at h2
          · simp only [Option.some.injEq] at h2; rw [← h2]
          · simp at h2
  have e3 : l3.cfg = l2.cfg := by
    unfold Lot.setSeqNums at h3
    split at h3
    · simp at h3
    · split at h3
      · simp at h3
      · simp only [Option.some.injEq] at h3; rw [← h3]
  have e4 : l'.cfg = l3.cfg := by
    unfold Lot.syncBlocks at h4
    split at h4
    · simp only [Option.some.injEq] at h4; rw [← h4]
    · simp at h4
  rw [e4, e3, e2, e1]

theorem encodeLots_cfgs {rs : RsCodec} {n : Nat} (ls : List Lot) : ∀ start ls', Buffer.encodeLots rs n start ls = some ls' →
    ls'.map (·.cfg) = ls.map (·.cfg) := by
  induction ls with
  | nil => intro start ls' h; simp only [Buffer.encodeLots, Option.some.injEq] at h; rw [← h]
  | cons l ls ih =>
    intro start ls' h
    unfold Buffer.encodeLots at h
    split at h
    · rename_i l' lx h1 h2
      simp only [Option.some.injEq] at h
      rw [← h, List.map_cons, List.map_cons, encodeLot_cfg h1, ih _ _ h2]
    · simp at h

theorem encode_cfgs {rs : RsCodec} {b b' : Buffer} (h : b.encode rs = some b') : cfgs b' = cfgs b := by
  unfold Buffer.encode at h
  split at h
  · simp at h
  · split at h
    · simp at h
    · rename_i lots hl
      simp only [Option.some.injEq] at h
      rw [← h]
      exact encodeLots_cfgs _ _ _ hl

theorem newMulti_cfgs {c : LotCfg} {L N : Nat} {b : Buffer} (h : b ∈ Buffer.newMulti c L N) : ∀ x ∈ cfgs b, x = c := by
  simp only [Buffer.newMulti, List.mem_map] at h
  obtain ⟨i, -, rfl⟩ := h
  simp [cfgs, Buffer.new, Lot.new]

theorem newMulti_skip {c : LotCfg} {L N : Nat} {b : Buffer} {reads : Bool} (h : b ∈ Buffer.newMulti c L N)
    (hc : c.skipGood = true → reads = true) : SkipIs reads b := by
  intro x hx
  rw [newMulti_cfgs h x hx]
  exact hc

theorem SkipIs.of_eq {reads : Bool} {b b' : Buffer} (h : SkipIs reads b) (e : cfgs b' = cfgs b) : SkipIs reads b' := by
  intro x hx
  have : x ∈ cfgs b := by rw [← e]; exact hx
  exact h x this

/-! ### `encode` -/

variable {D : Type} {o : Out D} {rel : D → Disk → Prop} {bad ok : Disk → Prop} {reads : Bool}

theorem fin3 : ∀ i : Fin 3, i ≠ 0 → i ≠ 1 → i = 2 := by decide

/-- Corresponding thread states. -/
def EncRel (rel : D → Disk → Prop) (s : Encode.St × D) (s' : Encode.St) : Prop :=
  s.1.rd = s'.rd ∧ s.1.wk = s'.wk ∧ s.1.panicked = s'.panicked ∧ rel s.2 s'.wr

theorem encode_sim (h : DevSim o rel bad ok reads) (rs : RsCodec) (p : Encode.Param) (stop : Nat → Bool) (required : Option Nat)
    (lastSeq fuel : Nat) :
    Pipeline.SimTo (encodeRing o rs p stop required lastSeq fuel) (Encode.ring rs p stop required lastSeq fuel) (fun _ => EncRel rel)
      (fun i s' => i = 2 ∧ bad s'.wr) (SkipIs reads) where
  step i s s' m hm hr := by
    obtain ⟨h1, h2, h3, h4⟩ := hr
    simp only [encodeRing, Encode.ring]
    by_cases hi0 : i = 0
    · right
      rw [if_pos hi0, if_pos hi0]
      unfold Encode.readerStep
      rw [h1]
      split
      · exact ⟨rfl, h1, h2, h3, h4⟩
      · split
        · exact ⟨rfl, rfl, h2, rfl, h4⟩
        · exact ⟨rfl, rfl, h2, h3, h4⟩
    · rw [if_neg hi0, if_neg hi0]
      by_cases hi1 : i = 1
      · right
        rw [if_pos hi1, if_pos hi1]
        unfold Encode.workerStep
        rw [h2]
        split
        · exact ⟨rfl, h1, rfl, rfl, h4⟩
        · exact ⟨rfl, h1, rfl, h3, h4⟩
      · rw [if_neg hi1, if_neg hi1]
        have hi2 : i = 2 := fin3 i hi0 hi1
        rcases h.buffer m hm s.2 s'.wr h4 with ⟨e, hb⟩ | ⟨d', e, hr'⟩
        · rw [e]; exact .inl ⟨rfl, hi0, hi2, hb⟩
        · rw [e]; exact .inr ⟨rfl, h1, h2, h3, hr'⟩
  sticky i s' m hb := by
    obtain ⟨rfl, hb⟩ := hb
    refine ⟨rfl, ?_⟩
    simp only [Encode.ring]
    rw [if_neg (by decide), if_neg (by decide)]
    exact h.bad_buffer _ _ hb
  msgs i s' m hm outs e := by
    simp only [Encode.ring] at e
    split at e
    · unfold Encode.readerStep at e
      split at e
      · simp at e
      · split at e
        · simp at e
        · rename_i hf
          simp only [Option.some.injEq] at e
          subst e
          intro x hx
          rw [List.mem_singleton.1 hx]
          exact hm.of_eq (encodeFill_cfgs _ _ _ _ _ hf)
    · split at e
      · unfold Encode.workerStep at e
        split at e
        · simp at e
        · rename_i hf
          simp only [Option.some.injEq] at e
          subst e
          intro x hx
          rw [List.mem_singleton.1 hx]
          exact hm.of_eq (encode_cfgs hf)
      · simp only [Encode.writerStep, Option.some.injEq] at e
        subst e
        intro x hx
        rw [List.mem_singleton.1 hx]
        exact hm.of_eq ((reset_cfgs _).trans (calc_cfgs _))

theorem encodeMeta_both (h : DevSim o rel bad ok reads) (p : Encode.Param) (bytes : List Byte) (d : D) (k : Disk) (hr : rel d k) :
    Both rel bad (encodeMeta o p bytes d) (Encode.writeMeta p bytes k) :=
  Both.foldlM (fun d k pos hr => h.write d k pos bytes hr) (fun k pos hb => h.bad_write k pos bytes hb) _ d k hr

theorem encodeMeta_bad (h : DevSim o rel bad ok reads) (p : Encode.Param) (bytes : List Byte) (k : Disk) (hb : bad k) :
    bad (Encode.writeMeta p bytes k) := foldl_bad (fun k pos hb => h.bad_write k pos bytes hb) _ k hb

theorem encode_bad_threads (h : DevSim o rel bad ok reads) (E : Encode.Env) (p : Encode.Param) (inp : Encode.Input) {k : Disk} (hb : bad k)
    {st : Encode.St} (e : Encode.runThreads E p inp k = some st) : bad st.wr := by
  unfold Encode.runThreads at e
  split at e
  · simp at e
  · rw [Option.map_eq_some_iff] at e
    obtain ⟨st', e, rfl⟩ := e
    exact ((encode_sim h _ _ _ _ _ _).run_sticky 2 _ _ _ _ ⟨rfl, hb⟩ e).2

theorem encode_bad_finish (h : DevSim o rel bad ok reads) (E : Encode.Env) (p : Encode.Param) (inp : Encode.Input) {st : Encode.St}
    (hb : bad st.wr) : bad (Encode.finish E p inp st).1 := by
  unfold Encode.finish
  split
  · exact hb
  · split
    · exact hb
    · split
      · simp only
        split
        · exact hb
        · exact encodeMeta_bad h _ _ _ hb
      · exact hb

/-- `encode` on a device: it reports success exactly if it does so when all writes are carried out and the device has not refused one of
these writes. -/
theorem encodeTo_both (h : DevSim o rel bad ok reads) (E : Encode.Env) (p : Encode.Param) (inp : Encode.Input) (d : D) (hr : rel d ⟨[], []⟩) :
    (encodeTo o d E p inp = none ∧ ∀ k rep, Encode.encodeFile E p inp = (k, .ok rep) → bad k) ∨
      ∃ d' k rep, encodeTo o d E p inp = some (d', rep) ∧ Encode.encodeFile E p inp = (k, .ok rep) ∧ rel d' k := by
  unfold encodeTo Encode.encodeFile
  cases ht : Encode.tooLarge p inp with
  | none => exact .inl ⟨rfl, by simp⟩
  | some t =>
    cases t with
    | true => exact .inl ⟨rfl, by simp⟩
    | false =>
      simp only
      -- placeholders
      have hdum : (encodeDummy o E p inp d = none ∧ ∀ k, Encode.dummyMeta E p inp = some k → bad k) ∨
          ∃ d' k, encodeDummy o E p inp d = some d' ∧ Encode.dummyMeta E p inp = some k ∧ rel d' k := by
        unfold encodeDummy Encode.dummyMeta
        split
        · cases Encode.metaBlockBytes p.version p.uid (Encode.packMetadata E.hash p inp 0 (Encode.required p inp) none) with
          | none => exact .inl ⟨rfl, by simp⟩
          | some b =>
            simp only [Option.bind_some, Option.map_some, Option.some.injEq]
            rcases encodeMeta_both h p b d _ hr with ⟨e, hb⟩ | ⟨d', e, hr'⟩
            · exact .inl ⟨e, by rintro _ rfl; exact hb⟩
            · exact .inr ⟨d', _, e, rfl, hr'⟩
        · exact .inr ⟨d, _, rfl, rfl, hr⟩
      rcases hdum with ⟨e, hb⟩ | ⟨d1, k1, e, e', hr1⟩
      · rw [e]
        refine .inl ⟨rfl, ?_⟩
        intro k rep hk
        cases hd : Encode.dummyMeta E p inp with
        | none => rw [hd] at hk; simp at hk
        | some k1 =>
          rw [hd] at hk
          simp only at hk
          cases hrun : Encode.runThreads E p inp k1 with
          | none => rw [hrun] at hk; simp at hk
          | some st =>
            rw [hrun] at hk
            simp only at hk
            have := encode_bad_finish h E p inp (encode_bad_threads h E p inp (hb k1 hd) hrun)
            rw [hk] at this
            exact this
      · rw [e, e']
        simp only
        -- threads
        have hthr : (encodeThreads o E p inp d1 = none ∧ ∀ st, Encode.runThreads E p inp k1 = some st → bad st.wr) ∨
            ∃ s st, encodeThreads o E p inp d1 = some s ∧ Encode.runThreads E p inp k1 = some st ∧ EncRel rel s st := by
          unfold encodeThreads Encode.runThreads
          cases lastDataSeqNumExcParity p.version p.dpb with
          | none => exact .inl ⟨rfl, by simp⟩
          | some lastSeq =>
            simp only
            rcases (encode_sim h E.rs p E.stop (Encode.required p inp) lastSeq (E.lotCount * p.cfg.direct + 1)).runSeq
                (inp.bytes.length + 3) (fun _ => (Encode.startSt p inp ⟨[], []⟩, d1)) (fun _ => Encode.startSt p inp k1)
                (Buffer.newMulti p.cfg E.lotCount Encode.buffersInRotation)
                (fun m hm => newMulti_skip hm (by simp [Encode.Param.cfg])) (fun _ => ⟨rfl, rfl, rfl, hr1⟩) with ⟨e1, e2⟩ | ⟨a, b, e1, e2, e3⟩
            · rw [e1]
              refine .inl ⟨rfl, ?_⟩
              intro st hst
              rw [Option.map_eq_some_iff] at hst
              obtain ⟨b, hb, rfl⟩ := hst
              obtain ⟨i, rfl, hi⟩ := e2 b hb
              exact hi
            · rw [e1, e2]
              refine .inr ⟨_, _, rfl, rfl, ?_⟩
              exact ⟨(e3 0).1, (e3 1).2.1, by simp only; rw [(e3 0).2.2.1, (e3 1).2.2.1], (e3 2).2.2.2⟩
        rcases hthr with ⟨e1, e2⟩ | ⟨s, st, e1, e2, h1, h2, h3, h4⟩
        · rw [e1]
          refine .inl ⟨rfl, ?_⟩
          intro k rep hk
          cases hrun : Encode.runThreads E p inp k1 with
          | none => rw [hrun] at hk; simp at hk
          | some st =>
            rw [hrun] at hk
            simp only at hk
            have := encode_bad_finish h E p inp (e2 st hrun)
            rw [hk] at this
            exact this
        · rw [e1, e2]
          simp only
          unfold encodeFinish Encode.finish
          rw [h1, h2, h3]
          cases st.panicked with
          | true => exact .inl ⟨rfl, by simp⟩
          | false =>
            simp only [Bool.false_or, Bool.false_eq_true, if_false]
            cases st.rd.overflow with
            | true => exact .inl ⟨rfl, by simp⟩
            | false =>
              simp only [Bool.false_eq_true, if_false]
              cases p.metaEnabled with
              | false => exact .inr ⟨s.2, st.wr, _, rfl, rfl, h4⟩
              | true =>
                simp only [if_true]
                generalize Encode.metaBlockBytes p.version p.uid (Encode.packMetadata E.hash p inp E.startTime
                  (some (st.wk.bytesEncoded p.version)) (some (E.hash.bytes p.hashType st.rd.hashed))) = mb
                cases mb with
                | none => exact .inl ⟨rfl, by simp⟩
                | some b =>
                  simp only
                  rcases encodeMeta_both h p b s.2 st.wr h4 with ⟨e, hb⟩ | ⟨d', e, hr'⟩
                  · rw [e]
                    refine .inl ⟨rfl, ?_⟩
                    intro k rep hk
                    simp only [Prod.mk.injEq] at hk
                    rw [← hk.1]; exact hb
                  · rw [e]
                    exact .inr ⟨d', _, _, rfl, rfl, hr'⟩

/-! ### `decode` to a file -/

theorem run2_both (h : DevSim o rel bad ok reads) {R : Type} (cap : Nat) (act : R → Act R) (fuel : Nat) (r : R) (d : D) (k : Disk)
    (bufs : List Buffer) (hs : ∀ b ∈ bufs, SkipIs reads b) (hr : rel d k) :
    (run2 cap act fuel (blockWriter o) r d bufs = none ∧ ∀ r' k', run2 cap act fuel fileWriter r k bufs = some (r', k') → bad k') ∨
      ∃ r' d' k', run2 cap act fuel (blockWriter o) r d bufs = some (r', d') ∧ run2 cap act fuel fileWriter r k bufs = some (r', k') ∧
        rel d' k' := by
  have hsim : Pipeline.SimTo (ring2 cap act fuel (blockWriter o)) (ring2 cap act fuel fileWriter)
      (fun _ (s : St R D) s' => s.rd = s'.rd ∧ s.run = s'.run ∧ s.panicked = s'.panicked ∧ rel s.con s'.con)
      (fun i s' => i = 1 ∧ bad s'.con) (SkipIs reads) := by
    refine ⟨?_, ?_, ?_⟩
    · intro i s s' m hm hr
      obtain ⟨h1, h2, h3, h4⟩ := hr
      simp only [ring2]
      by_cases hi : i = 0
      · right
        rw [if_pos hi, if_pos hi]
        unfold readerStep
        rw [h1, h2]
        split
        · exact ⟨rfl, h1, h2, h3, h4⟩
        · split
          · exact ⟨rfl, rfl, rfl, rfl, h4⟩
          · exact ⟨rfl, rfl, rfl, h3, h4⟩
      · rw [if_neg hi, if_neg hi]
        have hi1 : i = 1 := by revert i; decide
        unfold consumerStep blockWriter fileWriter
        rcases h.buffer m hm s.con s'.con h4 with ⟨e, hb⟩ | ⟨d', e, hr'⟩
        · rw [e]; exact .inl ⟨rfl, hi, hi1, hb⟩
        · rw [e]; exact .inr ⟨rfl, h1, h2, h3, hr'⟩
    · rintro i s' m ⟨rfl, hb⟩
      refine ⟨rfl, ?_⟩
      simp only [ring2]
      rw [if_neg (by decide)]
      exact h.bad_buffer _ _ hb
    · intro i s' m hm outs e
      simp only [ring2] at e
      split at e
      · unfold readerStep at e
        split at e
        · simp at e
        · split at e
          · simp at e
          · rename_i hf
            simp only [Option.some.injEq] at e
            subst e
            intro x hx
            rw [List.mem_singleton.1 hx]
            exact hm.of_eq (fillLoop_cfgs _ _ _ _ _ _ hf)
      · simp only [consumerStep, fileWriter, Option.some.injEq] at e
        subst e
        intro x hx
        rw [List.mem_singleton.1 hx]
        exact hm.of_eq ((reset_cfgs _).trans (calc_cfgs _))
  unfold run2
  rcases hsim.runSeq (fuel + 1) (fun _ => ⟨r, true, d, false⟩) (fun _ => ⟨r, true, k, false⟩) bufs hs (fun _ => ⟨rfl, rfl, rfl, hr⟩) with
    ⟨e1, e2⟩ | ⟨a, b, e1, e2, e3⟩
  · rw [e1]
    refine .inl ⟨rfl, ?_⟩
    intro r' k' e
    split at e
    · simp at e
    · rename_i b hb
      split at e
      · simp at e
      · simp only [Option.some.injEq, Prod.mk.injEq] at e
        obtain ⟨i, rfl, hi⟩ := e2 b hb
        rw [← e.2]; exact hi
  · rw [e1, e2]
    simp only
    obtain ⟨a1, -, a3, -⟩ := e3 0
    obtain ⟨-, -, b3, b4⟩ := e3 1
    rw [a3, b3]
    split
    · exact .inl ⟨rfl, by simp⟩
    · exact .inr ⟨_, _, _, rfl, by rw [a1], b4⟩

/-! ### `sort` -/

/-- Corresponding thread states. -/
def SortRel (rel : D → Disk → Prop) (s : Sort.St × D) (s' : Sort.St) : Prop :=
  s.1.rd = s'.rd ∧ s.1.run = s'.run ∧ s.1.order = s'.order ∧ s.1.panicked = s'.panicked ∧ ∃ k, s'.out = some k ∧ rel s.2 k

theorem doWriteMeta_read (ref : Block) (pos : Nat) (f : File) :
    Sort.doWriteMeta ref true 0 (f.readAt pos ref.header.version.blockSize) = Sort.doWriteMeta ref true pos f := by
  unfold Sort.doWriteMeta
  simp only [readAt_zero]

theorem sortMetas_both (h : DevSim o rel bad ok true) (ref : Block) (dpb : Option Dpb) (skip : Bool) (mb : List Byte) (d : D) (k : Disk)
    (hr : rel d k) : Both rel bad (sortMetas o ref dpb skip mb d) (Sort.writeMetas ref dpb skip mb k) := by
  have hbad : ∀ k pos, bad k → bad (if Sort.doWriteMeta ref skip pos k.file then k.writeAt pos mb else k) := by
    intro k pos hb
    split
    · exact h.bad_write _ _ _ hb
    · exact hb
  refine Both.foldlM ?_ hbad _ d k hr
  intro d k pos hr
  unfold sortMeta
  cases skip with
  | false =>
    simp only [Bool.false_eq_true, if_false]
    rw [if_pos (by simp [Sort.doWriteMeta])]
    exact h.write d k pos mb hr
  | true =>
    simp only [if_true]
    rcases h.read rfl d k pos ref.header.version.blockSize hr with ⟨e, hb⟩ | ⟨d', bs, e, hr', hbs⟩
    · rw [e]; exact .inl ⟨rfl, hbad k pos hb⟩
    · rw [e]
      simp only
      by_cases hok : ok k
      · rw [hbs hok, doWriteMeta_read]
        split
        · exact h.write d' k pos mb hr'
        · exact .inr ⟨d', rfl, hr'⟩
      · have hb' := hbad k pos (h.vacuous d k hok).2
        have hrel : ∀ d', rel d' (if Sort.doWriteMeta ref true pos k.file then k.writeAt pos mb else k) := by
          intro d'
          split
          · exact (h.vacuous d' _ fun hk => hok (h.ok_write _ _ _ hk)).1
          · exact (h.vacuous d' k hok).1
        split
        · cases hw : o.write d' pos mb with
          | none => exact .inl ⟨rfl, hb'⟩
          | some d2 => exact .inr ⟨d2, rfl, hrel d2⟩
        · exact .inr ⟨d', rfl, hrel d'⟩

/-- `sort` on a device that may be read: if it succeeds, so does `sort` when all writes are carried out, with the same report. -/
theorem sortWith_both (h : DevSim o rel bad ok true) (E : Sort.Env) (p : Sort.Param) (hp : p.toFile = true) (ref : Block) (dpb : Option Dpb)
    (f old : File) (d : D) (hr : rel d ⟨Decode.openOut p.multiPass old, []⟩) {d' : D} {st : Sort.Stats} {ord : Sort.Order}
    (e : sortWith o d E p ref dpb f = some (d', st, ord)) :
    ∃ k, Sort.sortWith E p ref dpb f old = .ok (some k, st, ord) ∧ rel d' k := by
  set r := Decode.rangeOf p.ref ref f with hrd
  set skip := p.multiPass == some Decode.MultiPass.skipGood with hskip
  have hsim : Pipeline.SimTo
      (sortRing o (Sort.act E.stop f r.seekTo r.requiredLen ref dpb p.reportBlank) (f.length + 3) ref dpb skip
        (r.seekTo % ref.header.version.blockSize))
      (Sort.ring (Sort.act E.stop f r.seekTo r.requiredLen ref dpb p.reportBlank) (f.length + 3) ref dpb skip
        (r.seekTo % ref.header.version.blockSize))
      (fun _ => SortRel rel) (fun i _ => i = 1) (fun _ => True) := by
    refine ⟨?_, fun _ _ _ h => h, fun _ _ _ _ _ _ _ _ => trivial⟩
    intro i s s' m _ hr
    obtain ⟨h1, h2, h3, h4, k, h5, h6⟩ := hr
    simp only [sortRing, Sort.ring]
    by_cases hi0 : i = 0
    · right
      rw [if_pos hi0, if_pos hi0]
      cases m with
      | metaBlock mb => exact ⟨rfl, h1, h2, h3, rfl, k, h5, h6⟩
      | buf b =>
        simp only [Sort.readerStep]
        rw [h1, h2]
        split
        · exact ⟨rfl, h1, h2, h3, h4, k, h5, h6⟩
        · split
          · exact ⟨rfl, rfl, rfl, h3, rfl, k, h5, h6⟩
          · exact ⟨rfl, rfl, rfl, h3, h4, k, h5, h6⟩
    · rw [if_neg hi0, if_neg hi0]
      by_cases hi1 : i = 1
      · rw [if_pos hi1, if_pos hi1]
        cases m with
        | metaBlock mb =>
          simp only [Sort.writerStep]
          rcases sortMetas_both h ref dpb skip mb s.2 k h6 with ⟨e, hb⟩ | ⟨d', e, hr'⟩
          · rw [e]; exact .inl ⟨rfl, hi0, hi1⟩
          · rw [e]; exact .inr ⟨rfl, h1, h2, h3, h4, _, by simp only [h5]; rfl, hr'⟩
        | buf b =>
          simp only [Sort.writerStep, h5]
          rcases h.buffer b (fun _ _ _ => rfl) s.2 k h6 with ⟨e, hb⟩ | ⟨d', e, hr'⟩
          · rw [e]; exact .inl ⟨rfl, hi0, hi1⟩
          · rw [e]; exact .inr ⟨rfl, h1, h2, h3, h4, _, rfl, hr'⟩
      · right
        rw [if_neg hi1, if_neg hi1]
        cases m with
        | metaBlock mb => exact ⟨rfl, h1, h2, h3, rfl, k, h5, h6⟩
        | buf b =>
          simp only [Sort.counterStep]
          rw [h3]
          split
          · exact ⟨rfl, h1, h2, rfl, rfl, k, h5, h6⟩
          · exact ⟨rfl, h1, h2, rfl, h4, k, h5, h6⟩
  unfold sortWith at e
  simp only [← hrd, ← hskip] at e
  rcases hsim.runSeq (f.length + 4) (fun _ => (Sort.start none, d))
      (fun _ => Sort.start (some ⟨Decode.openOut p.multiPass old, []⟩))
      ((Buffer.newMulti (Sort.cfg ref dpb skip) E.lotCount Sort.buffersInRotation).map .buf) (fun _ _ => trivial)
      (fun _ => ⟨rfl, rfl, rfl, rfl, _, rfl, hr⟩) with ⟨e1, e2⟩ | ⟨a, b, e1, e2, e3⟩
  · rw [e1] at e; simp at e
  · rw [e1] at e
    simp only at e
    unfold Sort.sortWith
    simp only [← hrd, ← hskip, hp, if_true, e2]
    obtain ⟨a1, -, -, a4, -⟩ := e3 0
    obtain ⟨-, -, -, b4, k, b5, b6⟩ := e3 1
    obtain ⟨-, -, c3, c4, -⟩ := e3 2
    rw [a4, b4, c4] at e
    split at e
    · simp at e
    · rename_i hn
      rw [if_neg hn]
      simp only [Option.some.injEq, Prod.mk.injEq] at e
      obtain ⟨rfl, rfl, rfl⟩ := e
      exact ⟨k, by rw [b5, a1, c3], b6⟩

end Verif.Device
