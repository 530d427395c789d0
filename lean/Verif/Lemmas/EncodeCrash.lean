import Verif.Lemmas.EncodeDone
import Verif.Lemmas.PipelineMono
/-!
# The output file of the encoder during the run
-/

namespace Verif

theorem Lot.writeSlot_prefix (c : LotCfg) (d : Disk) (s : Slot) :
    (Lot.writeSlot c d s).init = d.init ∧ d.ops <+: (Lot.writeSlot c d s).ops := by
  unfold Lot.writeSlot
  split
  · exact ⟨rfl, List.prefix_rfl⟩
  · split
    · exact ⟨rfl, List.prefix_rfl⟩
    · exact ⟨rfl, List.prefix_append _ _⟩

theorem Lot.write_prefix (l : Lot) (d : Disk) : (l.write d).init = d.init ∧ d.ops <+: (l.write d).ops := by
  unfold Lot.write
  generalize l.used = ss
  induction ss generalizing d with
  | nil => exact ⟨rfl, List.prefix_rfl⟩
  | cons s ss ih =>
    obtain ⟨h1, h2⟩ := writeSlot_prefix l.cfg d s
    obtain ⟨h3, h4⟩ := ih (Lot.writeSlot l.cfg d s)
    exact ⟨h3.trans h1, h2.trans h4⟩

theorem Buffer.write_prefix (b : Buffer) (d : Disk) : (b.write d).2.init = d.init ∧ d.ops <+: (b.write d).2.ops := by
  unfold Buffer.write
  simp only
  generalize b.calcSlotWritePos.lots = ls
  induction ls generalizing d with
  | nil => exact ⟨rfl, List.prefix_rfl⟩
  | cons l ls ih =>
    obtain ⟨h1, h2⟩ := l.write_prefix d
    obtain ⟨h3, h4⟩ := ih (l.write d)
    exact ⟨h3.trans h1, h2.trans h4⟩

namespace File

/-- Units of a file after unit-aligned writes, the last one incomplete. -/
theorem unit_crash {u : Nat} (hu : 0 < u) (ws : List (Nat × List Byte)) (hw : ∀ w ∈ ws, w.2.length = u)
    (next : Option (Nat × List Byte)) (hn : ∀ w, next = some w → w.2.length ≤ u) :
    maxUnits 0 ws * u ≤ (writes [] (atPos u ws ++ atPos u next.toList)).length ∧
    ∀ k, (k + 1) * u ≤ (writes [] (atPos u ws ++ atPos u next.toList)).length → (∀ w, next = some w → w.1 ≠ k) →
      unit u (writes [] (atPos u ws ++ atPos u next.toList)) k = (lastWrite ws k).getD (List.replicate u 0) := by
  obtain ⟨h1, h2⟩ := unit_writes hu ws hw (f := []) (by simp)
  simp only [List.length_nil, Nat.zero_div] at h1 h2
  rw [writes_append]
  generalize hf : writes [] (atPos u ws) = f at *
  have hdv : u ∣ f.length := by rw [h1]; exact Nat.dvd_mul_left _ _
  have hunit : ∀ k, unit0 u f k = (lastWrite ws k).getD (List.replicate u 0) := by
    intro k
    unfold unit0
    rw [h1]
    by_cases hk : k < maxUnits 0 ws
    · rw [if_pos (Nat.mul_lt_mul_of_pos_right hk hu), h2 k hk, unit0, if_neg (by simp)]
    · rw [if_neg (by rw [Nat.mul_lt_mul_right hu]; exact hk)]
      have : lastWrite ws k = none := by
        rw [lastWrite_none]
        intro w hw' hwk
        have := (maxUnits_le.1 (Nat.le_refl (maxUnits 0 ws))).2 w hw'
        omega
      rw [this]; rfl
  cases next with
  | none =>
    simp only [Option.toList_none, atPos, List.map_nil, writes, List.foldl_nil]
    refine ⟨by omega, ?_⟩
    intro k hk _
    rw [← hunit, unit0, if_pos]
    rw [Nat.succ_mul] at hk; omega
  | some w =>
    simp only [Option.toList_some, atPos, List.map_cons, List.map_nil, writes, List.foldl_cons, List.foldl_nil]
    constructor
    · by_cases he : w.2 = []
      · rw [he]; simp only [writeAt, if_true]; omega
      · rw [writeAt_length _ _ _ he]; omega
    · intro k hk hkj
      rw [unit_torn hdv (hn w rfl) (fun h => hkj w rfl h.symm) hk]
      exact hunit k

end File

namespace Encode
open Format ContainerSpec LayoutSpec FileUtils

theorem ring_one {rs : RsCodec} {p : Param} {stop : Nat → Bool} {required : Option Nat} {lastSeq fuel : Nat} (i : Fin 3) (s : St)
    (m : Buffer) (s' : St) (outs : List Buffer) (h : (ring rs p stop required lastSeq fuel).step i s m = (s', some outs)) :
    outs.length = 1 := by
  unfold ring at h
  simp only at h
  split at h
  · unfold readerStep at h
    split at h
    · simp at h
    · split at h
      · simp at h
      · simp only [Prod.mk.injEq, Option.some.injEq] at h; rw [← h.2]; rfl
  · split at h
    · unfold workerStep at h
      split at h
      · simp at h
      · simp only [Prod.mk.injEq, Option.some.injEq] at h; rw [← h.2]; rfl
    · unfold writerStep at h
      simp only [Prod.mk.injEq, Option.some.injEq] at h; rw [← h.2]; rfl

theorem newMulti_length (c : LotCfg) (L n : Nat) : (Buffer.newMulti c L n).length = n := by
  unfold Buffer.newMulti; simp

theorem finish_prefix (E : Env) (p : Param) (inp : Input) (st : St) :
    (finish E p inp st).1.init = st.wr.init ∧ st.wr.ops <+: (finish E p inp st).1.ops := by
  have hw : ∀ b, (writeMeta p b st.wr).init = st.wr.init ∧ st.wr.ops <+: (writeMeta p b st.wr).ops := by
    intro b
    rw [writeMeta_eq]
    exact ⟨rfl, List.prefix_append _ _⟩
  unfold finish
  split
  · exact ⟨rfl, List.prefix_rfl⟩
  · split
    · exact ⟨rfl, List.prefix_rfl⟩
    · split
      · simp only
        split
        · exact ⟨rfl, List.prefix_rfl⟩
        · exact hw _
      · exact ⟨rfl, List.prefix_rfl⟩

/-- Once the threads have been started there is exactly one way to finish, and everything reached before leads there. -/
theorem ring_end {E : Env} {p : Param} (hE : E.Ok p) (hok : p.Ok) {inp : Input} {d0 : Disk} {lastSeq : Nat}
    (h1 : tooLarge p inp = some false) (h2 : dummyMeta E p inp = some d0) (h3 : lastDataSeqNumExcParity p.version p.dpb = some lastSeq) :
      ∃ z, encodeFile E p inp = finish E p inp (collect z) ∧ d0.init = (z.thread 2).st.wr.init ∧ d0.ops <+: (z.thread 2).st.wr.ops ∧
        (∃ k, (ring E.rs p E.stop (required p inp) lastSeq (E.lotCount * p.cfg.direct + 1)).Steps k (spawned E p inp d0) z) ∧
        Pipeline.Finished z ∧
        ∀ k s, (ring E.rs p E.stop (required p inp) lastSeq (E.lotCount * p.cfg.direct + 1)).Steps k (spawned E p inp d0) s →
          (s.thread 2).st.wr.init = (z.thread 2).st.wr.init ∧ (s.thread 2).st.wr.ops <+: (z.thread 2).st.wr.ops ∧
          (Pipeline.Finished s → s = z) := by
  obtain ⟨cs, st, e, _⟩ := runThreads_spec hE hok inp d0
  have e' := e
  unfold runThreads at e'
  rw [h3] at e'
  simp only [Option.map_eq_some_iff] at e'
  obtain ⟨st', hseq, hst⟩ := e'
  obtain ⟨k, z, hz1, hz2, hz3, hz4⟩ := Pipeline.runSeq_all (fun i s m s' outs h => ring_one i s m s' outs h)
    (fun i => by rw [newMulti_length]; exact Nat.le_refl _) hseq
  have hmono : ∀ {k a b}, (ring E.rs p E.stop (required p inp) lastSeq (E.lotCount * p.cfg.direct + 1)).Steps k a b →
      ((b.thread 2).st.wr.init = (a.thread 2).st.wr.init ∧ (a.thread 2).st.wr.ops <+: (b.thread 2).st.wr.ops) := by
    intro k a b hab
    refine Pipeline.Ring.Steps.mono (r := fun x y : St => y.wr.init = x.wr.init ∧ x.wr.ops <+: y.wr.ops)
      (fun _ => ⟨rfl, List.prefix_rfl⟩) (fun _ _ _ h h' => ⟨h'.1.trans h.1, h.2.trans h'.2⟩) ?_ hab
    intro s m
    show (writerStep s m).1.wr.init = _ ∧ _ <+: (writerStep s m).1.wr.ops
    exact m.write_prefix s.wr
  refine ⟨z, ?_, (hmono hz1).1.symm, (hmono hz1).2, ⟨k, hz1⟩, hz2, ?_⟩
  · unfold encodeFile
    rw [h1]; simp only; rw [h2]; simp only; rw [e]; simp only
    rw [← hst]
    congr 1
    unfold collect
    rw [hz3, hz3, hz3]
  · intro k s hs
    obtain ⟨⟨l, hl⟩, hf⟩ := hz4 k s hs
    exact ⟨(hmono hl).1.symm, (hmono hl).2, hf⟩

/-- Whatever the schedule: the run ends with what the sequential program produces, and until then the writes issued are
the first ones of the same sequence of writes. -/
theorem reached_prefix {E : Env} {p : Param} (hE : E.Ok p) (hok : p.Ok) {inp : Input} {d : Disk} (h : Reached E p inp d) :
    d = ⟨[], []⟩ ∨ (tooLarge p inp = some false ∧ dummyMeta E p inp ≠ none ∧ d.init = (encodeFile E p inp).1.init ∧
      d.ops <+: (encodeFile E p inp).1.ops) := by
  cases h with
  | opened => exact .inl rfl
  | placeholder h1 h2 =>
    right
    obtain ⟨z, hz1, hz2, hz3, _⟩ := ring_end hE hok h1 h2 hok.lastSeq
    obtain ⟨f1, f2⟩ := finish_prefix E p inp (collect z)
    rw [hz1]
    exact ⟨h1, by rw [h2]; simp, hz2.trans f1.symm, hz3.trans f2⟩
  | @threads d0 lastSeq k s h1 h2 h3 h4 =>
    right
    obtain ⟨z, hz1, hz2, hz3, _, _, hz4⟩ := ring_end hE hok h1 h2 h3
    obtain ⟨f1, f2⟩ := finish_prefix E p inp (collect z)
    obtain ⟨g1, g2, _⟩ := hz4 _ _ h4
    rw [hz1]
    exact ⟨h1, by rw [h2]; simp, g1.trans f1.symm, g2.trans f2⟩
  | @ended d0 lastSeq k s h1 h2 h3 h4 h5 =>
    right
    obtain ⟨z, hz1, hz2, hz3, _, _, hz4⟩ := ring_end hE hok h1 h2 h3
    rw [hz1, (hz4 _ _ h4).2.2 h5]
    exact ⟨h1, by rw [h2]; simp, rfl, List.prefix_rfl⟩

theorem reached_end {E : Env} {p : Param} (hE : E.Ok p) (hok : p.Ok) {inp : Input} (h1 : tooLarge p inp = some false)
    (h2 : dummyMeta E p inp ≠ none) : Reached E p inp (encodeFile E p inp).1 := by
  obtain ⟨d0, h2⟩ := Option.ne_none_iff_exists'.1 h2
  obtain ⟨z, hz1, _, _, ⟨k, hk⟩, hz, _⟩ := ring_end hE hok h1 h2 hok.lastSeq
  rw [hz1]
  exact .ended h1 h2 hok.lastSeq hk hz

end Encode

end Verif
