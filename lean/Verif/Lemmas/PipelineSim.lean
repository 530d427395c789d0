import Verif.Model.Pipeline
/-!
# Two pipelines whose threads do the same
-/

namespace Verif.Pipeline

variable {n : Nat} {S S' M : Type} {R : Ring n S M} {R' : Ring n S' M} {rel : S → S' → Prop}

/-- Corresponding threads send the same messages and stay related. -/
def Sim (R : Ring n S M) (R' : Ring n S' M) (rel : S → S' → Prop) : Prop :=
  ∀ i s s' m, rel s s' → (R.step i s m).2 = (R'.step i s' m).2 ∧ rel (R.step i s m).1 (R'.step i s' m).1

theorem Sim.stage (h : Sim R R' rel) (i : Fin n) (ms : List M) : ∀ s s', rel s s' →
    (R.stage i s ms = none ∧ R'.stage i s' ms = none) ∨
      ∃ a b o, R.stage i s ms = some (a, o) ∧ R'.stage i s' ms = some (b, o) ∧ rel a b := by
  induction ms with
  | nil => intro s s' hr; exact .inr ⟨s, s', [], rfl, rfl, hr⟩
  | cons m ms ih =>
    intro s s' hr
    obtain ⟨h1, h2⟩ := h i s s' m hr
    unfold Ring.stage
    rcases hs : R.step i s m with ⟨t, o⟩
    rcases hs' : R'.step i s' m with ⟨t', o'⟩
    rw [hs, hs'] at h1 h2
    simp only at h1 h2
    subst h1
    cases o with
    | none => exact .inl ⟨rfl, rfl⟩
    | some outs =>
      simp only
      rcases ih t t' h2 with ⟨e1, e2⟩ | ⟨a, b, o, e1, e2, e3⟩
      · rw [e1, e2]; exact .inl ⟨rfl, rfl⟩
      · rw [e1, e2]; exact .inr ⟨a, b, outs ++ o, rfl, rfl, e3⟩

theorem Sim.pass (h : Sim R R' rel) (is : List (Fin n)) : ∀ (st : Fin n → S) (st' : Fin n → S') (ms : List M),
    (∀ i, rel (st i) (st' i)) →
    (R.pass is st ms = none ∧ R'.pass is st' ms = none) ∨
      ∃ a b o, R.pass is st ms = some (a, o) ∧ R'.pass is st' ms = some (b, o) ∧ ∀ i, rel (a i) (b i) := by
  induction is with
  | nil => intro st st' ms hr; exact .inr ⟨st, st', ms, rfl, rfl, hr⟩
  | cons i is ih =>
    intro st st' ms hr
    unfold Ring.pass
    rcases h.stage i ms (st i) (st' i) (hr i) with ⟨e1, e2⟩ | ⟨a, b, o, e1, e2, e3⟩
    · rw [e1, e2]; exact .inl ⟨rfl, rfl⟩
    · rw [e1, e2]
      apply ih
      intro j
      by_cases hj : j = i
      · subst hj; simpa using e3
      · simpa [Function.update_of_ne hj] using hr j

theorem Sim.runSeq {R : Ring (n + 1) S M} {R' : Ring (n + 1) S' M} (h : Sim R R' rel) (fuel : Nat) :
    ∀ (st : Fin (n + 1) → S) (st' : Fin (n + 1) → S') (ms : List M), (∀ i, rel (st i) (st' i)) →
    (R.runSeq fuel st ms = none ∧ R'.runSeq fuel st' ms = none) ∨
      ∃ a b, R.runSeq fuel st ms = some a ∧ R'.runSeq fuel st' ms = some b ∧ ∀ i, rel (a i) (b i) := by
  induction fuel with
  | zero => intros; exact .inl ⟨rfl, rfl⟩
  | succ fuel ih =>
    intro st st' ms hr
    cases ms with
    | nil => exact .inl ⟨rfl, rfl⟩
    | cons m ms =>
      obtain ⟨h1, h2⟩ := h 0 (st 0) (st' 0) m (hr 0)
      unfold Ring.runSeq
      rcases hs : R.step 0 (st 0) m with ⟨t, o⟩
      rcases hs' : R'.step 0 (st' 0) m with ⟨t', o'⟩
      rw [hs, hs'] at h1 h2
      simp only at h1 h2
      subst h1
      cases o with
      | none =>
        refine .inr ⟨_, _, rfl, rfl, ?_⟩
        intro j
        by_cases hj : j = 0
        · subst hj; simpa using h2
        · simpa [Function.update_of_ne hj] using hr j
      | some outs =>
        simp only
        rcases h.pass (List.finRange (n + 1)) st st' [m] hr with ⟨e1, e2⟩ | ⟨a, b, o, e1, e2, e3⟩
        · rw [e1, e2]; exact .inl ⟨rfl, rfl⟩
        · rw [e1, e2]; exact ih a b _ e3

theorem runSeq_mono {R : Ring (n + 1) S M} {fuel : Nat} : ∀ {fuel' : Nat} {st st' : Fin (n + 1) → S} {ms : List M}, fuel ≤ fuel' →
    R.runSeq fuel st ms = some st' → R.runSeq fuel' st ms = some st' := by
  induction fuel with
  | zero => intro _ _ _ _ _ h; simp [Ring.runSeq] at h
  | succ fuel ih =>
    intro fuel' st st' ms hle h
    obtain ⟨k, rfl⟩ : ∃ k, fuel' = k + 1 := ⟨fuel' - 1, by omega⟩
    cases ms with
    | nil => simp [Ring.runSeq] at h
    | cons m ms =>
      unfold Ring.runSeq at h ⊢
      split at h
      · exact h
      · split at h
        · simp at h
        · exact ih (by omega) h

end Verif.Pipeline
