import Verif.Lemmas.BlockRing
import Verif.Lemmas.PipelineMono
/-!
# Every schedule of a block ring ends like the sequential run
-/

namespace Verif.BlockRing
open Pipeline

variable {R C : Type}

theorem ring2_one (cap : Nat) (act : R → Act R) (fuel : Nat) (last : C → Buffer → Option (C × Buffer)) :
    ∀ i s m s' outs, (ring2 cap act fuel last).step i s m = (s', some outs) → outs.length = 1 := by
  intro i s m s' outs h
  simp only [ring2] at h
  split at h
  · unfold readerStep at h
    split at h
    · simp at h
    · split at h
      · simp at h
      · simp only [Prod.mk.injEq, Option.some.injEq] at h
        rw [← h.2]; rfl
  · unfold consumerStep at h
    split at h
    · simp at h
    · simp only [Prod.mk.injEq, Option.some.injEq] at h
      rw [← h.2]; rfl

theorem ring3_one (cap : Nat) (act : R → Act R) (fuel : Nat) (mid last : C → Buffer → Option (C × Buffer)) :
    ∀ i s m s' outs, (ring3 cap act fuel mid last).step i s m = (s', some outs) → outs.length = 1 := by
  intro i s m s' outs h
  have hc : ∀ f : C → Buffer → Option (C × Buffer), consumerStep f s m = (s', some outs) → outs.length = 1 := by
    intro f h
    unfold consumerStep at h
    split at h
    · simp at h
    · simp only [Prod.mk.injEq, Option.some.injEq] at h
      rw [← h.2]; rfl
  simp only [ring3] at h
  split at h
  · unfold readerStep at h
    split at h
    · simp at h
    · split at h
      · simp at h
      · simp only [Prod.mk.injEq, Option.some.injEq] at h
        rw [← h.2]; rfl
  · split at h
    · exact hc _ h
    · exact hc _ h

/-- All complete runs of the two threads end with what `run2` says; every run can be continued to a complete one. -/
theorem run2_all {cap : Nat} {act : R → Act R} {fuel : Nat} {last : C → Buffer → Option (C × Buffer)} {r r' : R} {x x' : C}
    {bufs : List Buffer} (hcap : bufs.length + 1 ≤ cap) (h : run2 cap act fuel last r x bufs = some (r', x')) :
    ∃ z, (∃ k, (ring2 cap act fuel last).Steps k (initial (fun _ => ⟨r, true, x, false⟩) bufs) z) ∧ Finished z ∧
      (z.thread 0).st.rd = r' ∧ (z.thread 1).st.con = x' ∧ (∀ i, (z.thread i).st.panicked = false) ∧
      ∀ j s, (ring2 cap act fuel last).Steps j (initial (fun _ => ⟨r, true, x, false⟩) bufs) s →
        (∃ l, (ring2 cap act fuel last).Steps l s z) ∧ (Finished s → s = z) := by
  unfold run2 at h
  cases hs : (ring2 cap act fuel last).runSeq (fuel + 1) (fun _ => ⟨r, true, x, false⟩) bufs with
  | none => rw [hs] at h; simp at h
  | some st =>
    rw [hs] at h
    simp only at h
    split at h
    · simp at h
    · rename_i hp
      simp only [Option.some.injEq, Prod.mk.injEq] at h
      simp only [Bool.or_eq_true, not_or, Bool.not_eq_true] at hp
      obtain ⟨k, z, h1, h2, h3, h4⟩ := runSeq_all (ring2_one cap act fuel last) (fun _ => hcap) hs
      refine ⟨z, ⟨k, h1⟩, h2, by rw [h3]; exact h.1, by rw [h3]; exact h.2, ?_, h4⟩
      intro i
      rw [h3]
      match i with
      | 0 => exact hp.1
      | 1 => exact hp.2

theorem run3_all {cap : Nat} {act : R → Act R} {fuel : Nat} {mid last : C → Buffer → Option (C × Buffer)} {r r' : R} {x x' y' : C}
    {bufs : List Buffer} (hcap : bufs.length + 1 ≤ cap) (h : run3 cap act fuel mid last r x bufs = some (r', x', y')) :
    ∃ z, (∃ k, (ring3 cap act fuel mid last).Steps k (initial (fun _ => ⟨r, true, x, false⟩) bufs) z) ∧ Finished z ∧
      (z.thread 0).st.rd = r' ∧ (z.thread 1).st.con = x' ∧ (z.thread 2).st.con = y' ∧ (∀ i, (z.thread i).st.panicked = false) ∧
      ∀ j s, (ring3 cap act fuel mid last).Steps j (initial (fun _ => ⟨r, true, x, false⟩) bufs) s →
        (∃ l, (ring3 cap act fuel mid last).Steps l s z) ∧ (Finished s → s = z) := by
  unfold run3 at h
  cases hs : (ring3 cap act fuel mid last).runSeq (fuel + 1) (fun _ => ⟨r, true, x, false⟩) bufs with
  | none => rw [hs] at h; simp at h
  | some st =>
    rw [hs] at h
    simp only at h
    split at h
    · simp at h
    · rename_i hp
      simp only [Option.some.injEq, Prod.mk.injEq] at h
      simp only [Bool.or_eq_true, not_or, Bool.not_eq_true] at hp
      obtain ⟨k, z, h1, h2, h3, h4⟩ := runSeq_all (ring3_one cap act fuel mid last) (fun _ => hcap) hs
      refine ⟨z, ⟨k, h1⟩, h2, by rw [h3]; exact h.1, by rw [h3]; exact h.2.1, by rw [h3]; exact h.2.2, ?_, h4⟩
      intro i
      rw [h3]
      match i with
      | 0 => exact hp.1.1
      | 1 => exact hp.1.2
      | 2 => exact hp.2

end Verif.BlockRing
