import Verif.Lemmas.PipelineSeq
/-!
# Pipelines: what holds during the run
-/

namespace Verif.Pipeline

variable {n : Nat} {S M : Type}

/-- If every loop body of thread `i` only extends its state, the state is extended by any steps of any threads. -/
theorem Ring.Steps.mono {R : Ring n S M} {i : Fin n} {r : S → S → Prop} (hr : ∀ a, r a a)
    (ht : ∀ a b c, r a b → r b c → r a c) (hs : ∀ s m, r s (R.step i s m).1) {k : Nat} {a b : Sys n S M} (h : R.Steps k a b) :
    r (a.thread i).st (b.thread i).st := by
  induction h with
  | refl s => exact hr _
  | cons hst _ ih =>
    refine ht _ _ _ ?_ ih
    obtain ⟨j, hj⟩ := hst
    rename_i a c _ _
    have hsame : ∀ t : Thread S M, t.st = (a.thread j).st → r (a.thread i).st ((Function.update a.thread j t) i).st := by
      intro t e
      by_cases hij : i = j
      · subst hij; rw [Function.update_self, e]; exact hr _
      · rw [Function.update_of_ne hij]; exact hr _
    have hnew : ∀ (t : Thread S M) m, t.st = (R.step j (a.thread j).st m).1 → r (a.thread i).st ((Function.update a.thread j t) i).st := by
      intro t m e
      by_cases hij : i = j
      · subst hij; rw [Function.update_self, e]; exact hs _ _
      · rw [Function.update_of_ne hij]; exact hr _
    refine stepT_cases (P := fun s => r (a.thread i).st (s.thread i).st) hj ?_ ?_ ?_ ?_ ?_ ?_ ?_
    · intro m q st outs _ _ e; exact hnew _ m (by rw [e])
    · intro m q st _ _ e; exact hnew _ m (by rw [e])
    · intro q _ _; exact hsame _ rfl
    · intro _; exact hsame _ rfl
    · intro m outs _ _; exact hsame _ rfl
    · intro _ _; exact hsame _ rfl
    · intro _ _; exact hsame _ rfl

/-- A pipeline whose loop bodies pass on exactly one buffer: the run that follows the sequential program, and every other run
is part of a run with the same end. -/
theorem runSeq_all {n : Nat} {R : Ring (n + 2) S M} (hone : ∀ i s m s' outs, R.step i s m = (s', some outs) → outs.length = 1)
    {st st' : Fin (n + 2) → S} {ms : List M} (hcap : ∀ i, ms.length + 1 ≤ R.cap i) {fuel : Nat} (h : R.runSeq fuel st ms = some st') :
    ∃ k z, R.Steps k (initial st ms) z ∧ Finished z ∧ (∀ i, (z.thread i).st = st' i) ∧
      ∀ j s, R.Steps j (initial st ms) s → (∃ l, R.Steps l s z) ∧ (Finished s → s = z) := by
  have hc : R.Conserving (fun _ => true) (fun _ _ => 0) := by
    intro i s m s' outs h
    have := hone i s m s' outs h
    simp [this]
  have hne : ms ≠ [] := by
    rintro rfl
    cases fuel <;> simp [Ring.runSeq] at h
  obtain ⟨k, z, h1, h2, h3⟩ := runSeq_exec hc (x := fun _ => 0) (List.length_pos_iff.2 hne) (fun i => by simpa using hcap _) fuel st st' ms
    (Inv.init (by simp) rfl (by omega) (fun _ => Nat.le_refl _)) h
  have hend : ∀ {z : Sys (n + 2) S M}, Finished z → ∀ z', ¬ R.Step z z' := by
    rintro z hz z' ⟨i, hi⟩
    obtain ⟨t, e, ha, -⟩ := stepT_eq hi
    have := hz i
    simp [Ring.act, this] at ha
  refine ⟨k, z, h1, h2, h3, ?_⟩
  intro j s hs
  obtain ⟨l, _, hl⟩ := h1.unique (hend h2) hs
  refine ⟨⟨l, hl⟩, ?_⟩
  intro hf
  cases hl with
  | refl => rfl
  | cons hst _ => exact absurd hst (hend hf _)

end Verif.Pipeline
