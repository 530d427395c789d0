import Verif.Lemmas.PipelineSeq
/-!
# C20: the multi-threaded pipelines are schedule independent and cannot deadlock

The statements are about `Ring.Steps`: any number of steps of any threads in any order.  Hypotheses: what one loop body does
to the circulating buffers (`Ring.Conserving`: pass the buffer on or leave the loop; `isBuf` tells circulating buffers from
the one extra metadata message of `sort`, `credit` bounds the extra messages) and the channel capacities of the program
(`PIPELINE_BUFFER_IN_ROTATION + 1`, one more in `sort` for the metadata message).
-/

namespace Verif.Pipeline

variable {n : Nat} {S M : Type}

/-- The same pipeline with, for every thread, a record of the messages received and of the messages sent. -/
def Ring.logged (R : Ring n S M) : Ring n (S × List M × List M) M where
  cap := R.cap
  step i s m :=
    match R.step i s.1 m with
    | (s', none) => ((s', s.2.1 ++ [m], s.2.2), none)
    | (s', some outs) => ((s', s.2.1 ++ [m], s.2.2 ++ outs), some outs)

/-- **C20, no deadlock.**  Whatever the threads do with the buffers (including leaving their loop because of an error at any
time) and in whatever order they are scheduled: as long as not all of them have returned some thread can make a step, and no
`unwrap` of a channel operation fails. -/
theorem C20_no_deadlock (hn : 2 ≤ n) (R : Ring n S M) (isBuf : M → Bool) (credit : Fin n → S → Nat)
    (hc : R.Conserving isBuf credit) (st : Fin n → S) (ms : List M) (hms : ms ≠ []) (hbuf : ∀ m ∈ ms, isBuf m = true)
    (hcap : ∀ i, ms.length + credit i (st i) + 1 ≤ R.cap (next i)) (k : Nat) (s : Sys n S M)
    (h : R.Steps k (initial st ms) s) : ¬ Panics s ∧ (Finished s ∨ ∃ s', R.Step s s') := by
  have hI := (Inv.init (credit := credit) (x := fun i => credit i (st i)) hbuf rfl (by omega) (fun _ => Nat.le_refl _)).steps
    hn hc h
  refine ⟨hI.no_panic, ?_⟩
  by_cases hf : Finished s
  · exact .inl hf
  · exact .inr (hI.progress (List.length_pos_iff.2 hms) hcap hf)

/-- **C20, termination.**  If the reader (thread 0) goes through its loop only finitely often (`rank` decreases), then every
schedule comes to an end after at most a fixed number of steps, with all threads returned. -/
theorem C20_terminates (hn : 2 ≤ n) (R : Ring n S M) (isBuf : M → Bool) (credit : Fin n → S → Nat)
    (hc : R.Conserving isBuf credit) (rank : S → Nat)
    (hr : ∀ i s m s' outs, i.val = 0 → R.step i s m = (s', some outs) → rank s' < rank s)
    (st : Fin n → S) (ms : List M) (hms : ms ≠ []) (hbuf : ∀ m ∈ ms, isBuf m = true)
    (hcap : ∀ i, ms.length + credit i (st i) + 1 ≤ R.cap (next i)) :
    ∃ bound, ∀ k s, R.Steps k (initial st ms) s → k ≤ bound ∧ ((∀ s', ¬ R.Step s s') → Finished s) := by
  refine ⟨work isBuf credit rank (initial st ms), ?_⟩
  intro k s h
  constructor
  · have : ∀ {k a b}, R.Steps k a b → k + work isBuf credit rank b ≤ work isBuf credit rank a := by
      intro k a b hab
      induction hab with
      | refl s => omega
      | cons hst _ ih => have := work_step hc hr hst; omega
    have := this h
    omega
  · intro hstop
    rcases (C20_no_deadlock hn R isBuf credit hc st ms hms hbuf hcap k s h).2 with hf | ⟨s', hs'⟩
    · exact hf
    · exact absurd hs' (hstop s')

/-- **C20, schedule independence.**  If one schedule runs to completion, then every schedule can be continued to the very
same final state (states of all threads, in particular everything written, and channel contents), in the same total number
of steps; so none of them can run on forever or stop anywhere else. -/
theorem C20_schedule_independent (R : Ring n S M) (st : Fin n → S) (ms : List M) (k : Nat) (z : Sys n S M)
    (h : R.Steps k (initial st ms) z) (hz : Finished z) (j : Nat) (s : Sys n S M) (hs : R.Steps j (initial st ms) s) :
    ∃ l, k = j + l ∧ R.Steps l s z := by
  refine h.unique ?_ hs
  rintro z' ⟨i, hi⟩
  obtain ⟨t, e, ha, -⟩ := stepT_eq hi
  have := hz i
  simp [Ring.act, this] at ha

/-- **C20, equivalence with the sequential program.**  If the sequential program (`runSeq`: one buffer at a time through all
threads, until the reader leaves its loop) ends with thread states `st'`, then every schedule of the pipeline can only end
with all threads returned in exactly these states. -/
theorem C20_equals_sequential {n : Nat} (R : Ring (n + 2) S M) (isBuf : M → Bool) (credit : Fin (n + 2) → S → Nat)
    (hc : R.Conserving isBuf credit) (st st' : Fin (n + 2) → S) (ms : List M) (hbuf : ∀ m ∈ ms, isBuf m = true)
    (hcap : ∀ i, ms.length + credit i (st i) + 1 ≤ R.cap (next i)) (fuel : Nat) (h : R.runSeq fuel st ms = some st') :
    ∃ bound, ∀ j s, R.Steps j (initial st ms) s →
      j ≤ bound ∧ ((∀ s', ¬ R.Step s s') → Finished s ∧ ∀ i, (s.thread i).st = st' i) := by
  have hne : ms ≠ [] := by
    rintro rfl
    cases fuel <;> simp [Ring.runSeq] at h
  obtain ⟨k, z, hz1, hz2, hz3⟩ := runSeq_exec (isBuf := isBuf) hc (x := fun i => credit i (st i))
    (List.length_pos_iff.2 hne) hcap fuel st st' ms (Inv.init hbuf rfl (by omega) (fun _ => Nat.le_refl _)) h
  refine ⟨k, ?_⟩
  intro j s hs
  obtain ⟨l, hkl, hl⟩ := C20_schedule_independent R st ms k z hz1 hz2 j s hs
  refine ⟨by omega, ?_⟩
  intro hstop
  cases hl with
  | refl => exact ⟨hz2, hz3⟩
  | cons hst _ => exact absurd hst (hstop _)

/-- **C20, order.**  In every reachable state of every schedule, each thread has received exactly the first messages sent by
the thread before it, in the same order and each once (the remaining ones are still in the channel or about to be sent), and
its state is the result of processing exactly these messages in that order. -/
theorem C20_in_order (hn : 2 ≤ n) (R : Ring n S M) (st : Fin n → S) (ms : List M) (k : Nat)
    (s : Sys n (S × List M × List M) M) (h : R.logged.Steps k (initial (fun i => (st i, [], [])) ms) s) (i : Fin n) :
    (if (next i).val = 0 then ms else []) ++ (s.thread i).st.2.2 =
      (s.thread (next i)).st.2.1 ++ (s.queue (next i)).filterMap id ++ (s.thread i).phase.pending ∧
    (s.thread i).st.1 = (s.thread i).st.2.1.foldl (fun a m => (R.step i a m).1) (st i) := by
  revert i
  refine Ring.Steps.invariant (R := R.logged) (P := fun s => ∀ i : Fin n,
    (if (next i).val = 0 then ms else []) ++ (s.thread i).st.2.2 =
      (s.thread (next i)).st.2.1 ++ (s.queue (next i)).filterMap id ++ (s.thread i).phase.pending ∧
    (s.thread i).st.1 = (s.thread i).st.2.1.foldl (fun a m => (R.step i a m).1) (st i)) ?_ h ?_
  · rintro a b ha ⟨i, hi⟩
    have hni := next_ne hn i
    -- effect of receiving a message
    have hrec : ∀ (m : M) (q : List (Option M)) (t : Thread (S × List M × List M) M) (outs : List M),
        (a.thread i).phase = .recv → a.queue i = some m :: q →
        t.st = ((R.step i (a.thread i).st.1 m).1, (a.thread i).st.2.1 ++ [m], (a.thread i).st.2.2 ++ outs) →
        t.phase.pending = outs → ∀ j : Fin n,
        (if (next j).val = 0 then ms else []) ++ ((Function.update a.thread i t) j).st.2.2 =
          ((Function.update a.thread i t) (next j)).st.2.1 ++ ((Function.update a.queue i q) (next j)).filterMap id ++
            ((Function.update a.thread i t) j).phase.pending ∧
        ((Function.update a.thread i t) j).st.1 =
          ((Function.update a.thread i t) j).st.2.1.foldl (fun a m => (R.step j a m).1) (st j) := by
      intro m q t outs hp hq hst hpd j
      obtain ⟨h1, h2⟩ := ha j
      by_cases hj : j = i
      · subst hj
        rw [Function.update_self, Function.update_of_ne hni, Function.update_of_ne hni, hst, hpd]
        constructor
        · simp only
          rw [← List.append_assoc, h1, hp]
          simp [Phase.pending]
        · simp only [List.foldl_append, List.foldl_cons, List.foldl_nil]; rw [← h2]
      · rw [Function.update_of_ne hj]
        refine ⟨?_, h2⟩
        by_cases hji : next j = i
        · rw [h1, hji, Function.update_self, Function.update_self, hst, hq]; simp
        · rw [Function.update_of_ne hji, Function.update_of_ne hji]; exact h1
    have hstay : ∀ (p : Phase M) (q : Fin n → List (Option M)),
        (∀ j, j ≠ i → (q (next j)).filterMap id = (a.queue (next j)).filterMap id) →
        ((q (next i)).filterMap id ++ p.pending = (a.queue (next i)).filterMap id ++ (a.thread i).phase.pending) →
        ∀ j : Fin n,
        (if (next j).val = 0 then ms else []) ++ ((Function.update a.thread i ⟨(a.thread i).st, p⟩) j).st.2.2 =
          ((Function.update a.thread i ⟨(a.thread i).st, p⟩) (next j)).st.2.1 ++ (q (next j)).filterMap id ++
            ((Function.update a.thread i ⟨(a.thread i).st, p⟩) j).phase.pending ∧
        ((Function.update a.thread i ⟨(a.thread i).st, p⟩) j).st.1 =
          ((Function.update a.thread i ⟨(a.thread i).st, p⟩) j).st.2.1.foldl (fun a m => (R.step j a m).1) (st j) := by
      intro p q hq1 hq2 j
      obtain ⟨h1, h2⟩ := ha j
      have hst : ∀ j, ((Function.update a.thread i ⟨(a.thread i).st, p⟩) j).st = (a.thread j).st := by
        intro j
        by_cases hj : j = i
        · subst hj; simp
        · simp [hj]
      rw [hst, hst]
      refine ⟨?_, h2⟩
      by_cases hj : j = i
      · subst hj
        rw [Function.update_self, h1, List.append_assoc, List.append_assoc, hq2]
      · rw [Function.update_of_ne hj, hq1 j hj, h1]
    refine stepT_cases (P := fun s => ∀ i : Fin n,
      (if (next i).val = 0 then ms else []) ++ (s.thread i).st.2.2 =
        (s.thread (next i)).st.2.1 ++ (s.queue (next i)).filterMap id ++ (s.thread i).phase.pending ∧
      (s.thread i).st.1 = (s.thread i).st.2.1.foldl (fun a m => (R.step i a m).1) (st i)) hi ?_ ?_ ?_ ?_ ?_ ?_ ?_
    · intro m q st' outs hp hq hs
      simp only [Ring.logged] at hs
      split at hs
      · simp at hs
      · rename_i s1 o1 heq
        simp only [Prod.mk.injEq, Option.some.injEq] at hs
        obtain ⟨rfl, rfl⟩ := hs
        exact hrec m q _ o1 hp hq (by simp [heq]) rfl
    · intro m q st' hp hq hs
      simp only [Ring.logged] at hs
      split at hs
      · rename_i s1 heq
        simp only [Prod.mk.injEq, and_true] at hs
        subst hs
        exact hrec m q _ [] hp hq (by simp [heq]) rfl
      · simp at hs
    · intro q hp hq
      apply hstay _ (Function.update a.queue i q)
      · intro j hj
        by_cases hji : next j = i
        · rw [hji, Function.update_self, hq]; rfl
        · rw [Function.update_of_ne hji]
      · rw [Function.update_of_ne hni, hp]
        rfl
    · intro hp
      apply hstay _ a.queue (fun _ _ => rfl)
      rw [hp]; rfl
    · intro m outs hp _
      apply hstay _ (Function.update a.queue (next i) (a.queue (next i) ++ [some m]))
      · intro j hj
        rw [Function.update_of_ne (fun h => hj (next_injective h))]
      · rw [Function.update_self, hp]; simp [Phase.pending]
    · intro hp _
      apply hstay _ (Function.update a.queue (next i) (a.queue (next i) ++ [none]))
      · intro j hj
        rw [Function.update_of_ne (fun h => hj (next_injective h))]
      · rw [Function.update_self, hp]; simp [Phase.pending]
    · intro hp _
      apply hstay _ a.queue (fun _ _ => rfl)
      rw [hp]; rfl
  · intro i
    by_cases h : (next i).val = 0 <;> simp [initial, Phase.pending, h]

/-! ## Instance: three threads, a reader that stops, a worker, a writer that records what it got -/

/-- Reader: number the buffer and count down, break at 0.  Worker: add 100.  Writer: record. -/
def demo : Ring 3 (Nat × List Nat) Nat where
  cap _ := 3
  step i s m :=
    if i = 0 then (if s.1 = 0 then (s, none) else ((s.1 - 1, s.2), some [s.1]))
    else if i = 1 then (s, some [m + 100])
    else ((s.1, s.2 ++ [m]), some [m])

theorem demo_conserving : demo.Conserving (fun _ => true) (fun _ _ => 0) := by
  intro i s m s' outs h
  unfold demo at h
  simp only at h
  split at h
  · split at h
    · simp at h
    · simp only [Prod.mk.injEq, Option.some.injEq] at h; rw [← h.2]; simp
  · split at h
    · simp only [Prod.mk.injEq, Option.some.injEq] at h; rw [← h.2]; simp
    · simp only [Prod.mk.injEq, Option.some.injEq] at h; rw [← h.2]; simp

example : ∀ k s, demo.Steps k (initial (fun _ => (5, [])) [0, 0]) s → ¬ Panics s ∧ (Finished s ∨ ∃ s', demo.Step s s') :=
  C20_no_deadlock (by omega) demo (fun _ => true) (fun _ _ => 0) demo_conserving _ _ (by simp) (by simp) (by simp [demo])

example : ∃ bound, ∀ k s, demo.Steps k (initial (fun _ => (5, [])) [0, 0]) s →
    k ≤ bound ∧ ((∀ s', ¬ demo.Step s s') → Finished s) :=
  C20_terminates (by omega) demo (fun _ => true) (fun _ _ => 0) demo_conserving Prod.fst (by
    intro i s m s' outs hi h
    have : i = 0 := Fin.ext hi
    subst this
    simp only [demo, if_true] at h
    split at h
    · simp at h
    · simp only [Prod.mk.injEq, Option.some.injEq] at h; rw [← h.1]; simp; omega) _ _ (by simp) (by simp) (by simp [demo])

/-- Two buffers, five rounds: whatever the schedule, the writer ends up with 105, 104, ..., 101. -/
example : ∃ bound, ∀ j s, demo.Steps j (initial (fun _ => (5, [])) [0, 0]) s →
    j ≤ bound ∧ ((∀ s', ¬ demo.Step s s') → Finished s ∧ (s.thread 2).st.2 = [105, 104, 103, 102, 101]) := by
  cases h : demo.runSeq 10 (fun _ => (5, [])) [0, 0] with
  | none => exact absurd h (by decide)
  | some st' =>
    obtain ⟨b, hb⟩ := C20_equals_sequential demo (fun _ => true) (fun _ _ => 0) demo_conserving _ st' [0, 0] (by simp)
      (by simp [demo]) 10 h
    refine ⟨b, fun j s hs => ⟨(hb j s hs).1, fun hstop => ?_⟩⟩
    obtain ⟨h1, h2⟩ := (hb j s hs).2 hstop
    refine ⟨h1, ?_⟩
    have h3 : (demo.runSeq 10 (fun _ => (5, [])) [0, 0]).map (fun f => (f 2).2) = some [105, 104, 103, 102, 101] := by
      decide
    rw [h] at h3
    rw [h2 2]
    simpa using h3

example : ∃ s, demo.logged.Steps 1 (initial (fun i => ((fun _ => (5, [])) i, [], [])) [0, 0]) s ∧ (s.thread 0).st.2.1 = [0] :=
  ⟨_, .single ⟨0, rfl⟩, rfl⟩

end Verif.Pipeline
