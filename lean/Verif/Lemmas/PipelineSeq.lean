import Verif.Lemmas.Pipeline
/-!
# The sequential program is one of the executions of the pipeline
-/

namespace Verif.Pipeline

variable {n : Nat} {S M : Type} {isBuf : M → Bool} {credit : Fin n → S → Nat}

theorem Inv.steps {R : Ring n S M} (hn : 2 ≤ n) (hc : R.Conserving isBuf credit) {N : Nat} {x : Fin n → Nat} {k : Nat}
    {s s' : Sys n S M} (h : Inv isBuf credit N x s) (hs : R.Steps k s s') : Inv isBuf credit N x s' :=
  Ring.Steps.invariant (P := Inv isBuf credit N x) (fun _ _ h hst => h.step hn hc hst) hs h

/-- Sending out a list of messages. -/
theorem send_all {R : Ring n S M} (hn : 2 ≤ n) (hc : R.Conserving isBuf credit) {N : Nat} {x : Fin n → Nat}
    (hcap : ∀ i, N + x i + 1 ≤ R.cap (next i)) (i : Fin n) (outs : List M) (s : Sys n S M) (h : Inv isBuf credit N x s)
    (st : S) (ht : s.thread i = ⟨st, .send outs⟩) :
    ∃ k, R.Steps k s ⟨Function.update s.thread i ⟨st, .recv⟩,
      Function.update s.queue (next i) (s.queue (next i) ++ outs.map some)⟩ := by
  induction outs generalizing s with
  | nil =>
    refine ⟨1, .single ⟨i, ?_⟩⟩
    rw [stepT_of (t := ⟨st, .recv⟩) (e := .nothing) (by rw [ht]; rfl)]
    simp [applyEffect]
  | cons m outs ih =>
    have hr : R.room s (next i) = true := h.room hcap (by rw [ht]; rfl)
    have h1 : R.stepT i s = some ⟨Function.update s.thread i ⟨st, .send outs⟩,
        Function.update s.queue (next i) (s.queue (next i) ++ [some m])⟩ :=
      stepT_of (t := ⟨st, .send outs⟩) (e := .push (some m)) (by rw [ht, hr]; rfl)
    obtain ⟨k, hk⟩ := ih _ (h.step hn hc ⟨i, h1⟩) (by simp)
    refine ⟨k + 1, .cons ⟨i, h1⟩ ?_⟩
    simpa using hk

/-- One thread working through a list of messages. -/
theorem stage_exec {R : Ring n S M} (hn : 2 ≤ n) (hc : R.Conserving isBuf credit) {N : Nat} {x : Fin n → Nat}
    (hcap : ∀ i, N + x i + 1 ≤ R.cap (next i)) (i : Fin n) (ms : List M) (s : Sys n S M) (h : Inv isBuf credit N x s)
    (st st' : S) (outs : List M) (rest : List (Option M)) (ht : s.thread i = ⟨st, .recv⟩)
    (hq : s.queue i = ms.map some ++ rest) (hst : R.stage i st ms = some (st', outs)) :
    ∃ k, R.Steps k s ⟨Function.update s.thread i ⟨st', .recv⟩,
      Function.update (Function.update s.queue i rest) (next i) (s.queue (next i) ++ outs.map some)⟩ := by
  have hni : next i ≠ i := next_ne hn i
  induction ms generalizing s st outs with
  | nil =>
    simp only [Ring.stage, Option.some.injEq, Prod.mk.injEq] at hst
    obtain ⟨rfl, rfl⟩ := hst
    refine ⟨0, ?_⟩
    have hq' : s.queue i = rest := by simpa using hq
    have e1 : Function.update s.thread i ⟨st, .recv⟩ = s.thread := by rw [← ht]; exact Function.update_eq_self i _
    have e2 : Function.update s.queue i rest = s.queue := by rw [← hq']; exact Function.update_eq_self i _
    rw [e1, e2]
    simp only [List.map_nil, List.append_nil, Function.update_eq_self]
    exact .refl _
  | cons m ms ih =>
    rw [Ring.stage] at hst
    cases hs : R.step i st m with
    | mk st1 o =>
      rw [hs] at hst
      cases o with
      | none => simp at hst
      | some outs1 =>
        simp only [Option.map_eq_some_iff] at hst
        obtain ⟨⟨st2, outs2⟩, hst2, hst3⟩ := hst
        simp only [Prod.mk.injEq] at hst3
        obtain ⟨rfl, rfl⟩ := hst3
        have h1 : R.stepT i s = some ⟨Function.update s.thread i ⟨st1, .send outs1⟩,
            Function.update s.queue i (ms.map some ++ rest)⟩ := by
          rw [stepT_of (t := ⟨st1, .send outs1⟩) (e := .pop)]
          · simp [applyEffect, hq]
          · rw [ht, hq]; simp [Ring.act, hs]
        have hI1 := h.step hn hc ⟨i, h1⟩
        obtain ⟨k1, hk1⟩ := send_all hn hc hcap i outs1 _ hI1 st1 (by simp)
        have hI2 := hI1.steps hn hc hk1
        obtain ⟨k2, hk2⟩ := ih _ hI2 st1 outs2 (by simp)
          (by simp only; rw [Function.update_of_ne hni.symm, Function.update_self]) hst2
        refine ⟨1 + (k1 + k2), (Ring.Steps.single ⟨i, h1⟩).trans (hk1.trans ?_)⟩
        convert hk2 using 2
        · simp
        · simp only [Function.update_self, Function.update_of_ne hni]
          funext j
          by_cases hj : j = next i
          · subst hj; simp
          · by_cases hj' : j = i
            · subst hj'; simp [hni.symm]
            · simp [hj, hj']

/-- State in which thread `k` is about to process `xs` and everybody else is idle. -/
def hold (st : Fin n → S) (k : Nat) (xs ms : List M) : Sys n S M :=
  ⟨fun i => ⟨st i, .recv⟩, fun i => if i.val = 0 then ms.map some else if i.val = k then xs.map some else []⟩

theorem pass_exec {R : Ring n S M} (hn : 2 ≤ n) (hc : R.Conserving isBuf credit) {N : Nat} {x : Fin n → Nat}
    (hcap : ∀ i, N + x i + 1 ≤ R.cap (next i)) (is : List (Fin n)) (k : Nat) (hk : 1 ≤ k)
    (his : is.map Fin.val = List.range' k (n - k)) (st st' : Fin n → S) (xs xs' ms : List M) (hkn : k < n)
    (h : Inv isBuf credit N x (hold st k xs ms)) (hp : R.pass is st xs = some (st', xs')) :
    ∃ j, R.Steps j (hold st k xs ms) (initial st' (ms ++ xs')) := by
  induction is generalizing k st xs with
  | nil =>
    have := congrArg List.length his
    simp at this; omega
  | cons i is ih =>
    rw [show n - k = (n - k - 1) + 1 by omega, List.range'_succ, List.map_cons, List.cons.injEq] at his
    obtain ⟨hik, his⟩ := his
    rw [Ring.pass] at hp
    cases hst : R.stage i (st i) xs with
    | none => rw [hst] at hp; simp at hp
    | some r =>
      obtain ⟨s1, outs⟩ := r
      rw [hst] at hp
      simp only at hp
      obtain ⟨j1, hj1⟩ := stage_exec hn hc hcap i xs _ h (st i) s1 outs [] rfl
        (by simp only [hold, List.append_nil]; rw [if_neg (by omega), if_pos hik]) hst
      have hI := h.steps hn hc hj1
      have hth : Function.update (hold st k xs ms).thread i ⟨s1, Phase.recv⟩ =
          fun j => ⟨Function.update st i s1 j, Phase.recv⟩ := by
        funext j
        by_cases hj : j = i
        · subst hj; simp
        · simp [hold, hj]
      by_cases hlast : k + 1 < n
      · have hnx : (next i).val = k + 1 := by unfold next; rw [dif_pos (by omega)]; simp; omega
        have heq : (⟨Function.update (hold st k xs ms).thread i ⟨s1, Phase.recv⟩,
            Function.update (Function.update (hold st k xs ms).queue i []) (next i)
              ((hold st k xs ms).queue (next i) ++ outs.map some)⟩ : Sys n S M) =
            hold (Function.update st i s1) (k + 1) outs ms := by
          rw [hth]
          unfold hold
          congr 1
          funext j
          by_cases hj : j = next i
          · subst hj
            simp only [Function.update_self, hnx]
            rw [if_neg (by omega), if_neg (by omega), if_neg (by omega), if_true]; rfl
          · rw [Function.update_of_ne hj]
            have hj2 : j.val ≠ k + 1 := fun h => hj (Fin.ext (by omega))
            by_cases hj' : j = i
            · subst hj'; rw [Function.update_self, if_neg (by omega), if_neg hj2]
            · have hj3 : j.val ≠ k := fun h => hj' (Fin.ext (by omega))
              rw [Function.update_of_ne hj', if_neg hj2]
              simp only [if_neg hj3]
        rw [heq] at hj1 hI
        obtain ⟨j2, hj2⟩ := ih (k + 1) (by omega) (by rw [his]; rfl) _ _ hlast hI hp
        exact ⟨j1 + j2, hj1.trans hj2⟩
      · have hnil : is = [] := by
          have := congrArg List.length his
          simp at this
          apply List.eq_nil_of_length_eq_zero; omega
        subst hnil
        simp only [Ring.pass, Option.some.injEq, Prod.mk.injEq] at hp
        obtain ⟨rfl, rfl⟩ := hp
        have hnx : (next i).val = 0 := by unfold next; rw [dif_neg (by omega)]
        have heq : (⟨Function.update (hold st k xs ms).thread i ⟨s1, Phase.recv⟩,
            Function.update (Function.update (hold st k xs ms).queue i []) (next i)
              ((hold st k xs ms).queue (next i) ++ outs.map some)⟩ : Sys n S M) =
            initial (Function.update st i s1) (ms ++ outs) := by
          rw [hth]
          unfold hold initial
          congr 1
          funext j
          by_cases hj : j = next i
          · subst hj
            simp only [Function.update_self, hnx, if_true, List.map_append]
          · rw [Function.update_of_ne hj]
            have hj2 : j.val ≠ 0 := fun h => hj (Fin.ext (by omega))
            by_cases hj' : j = i
            · subst hj'; rw [Function.update_self, if_neg hj2]
            · have hj3 : j.val ≠ k := fun h => hj' (Fin.ext (by omega))
              rw [Function.update_of_ne hj']
              simp only [if_neg hj2, if_neg hj3]
        rw [heq] at hj1
        exact ⟨j1, hj1⟩

/-- Shutting down: thread 0 has left its loop and nothing but shutdown messages is on the way to the other threads. -/
structure Quiet (s : Sys n S M) : Prop where
  first : ∀ i, i.val = 0 → (s.thread i).phase ≠ .recv
  nosend : ∀ i outs, (s.thread i).phase ≠ .send outs
  queues : ∀ i m q, i.val ≠ 0 → s.queue i ≠ some m :: q
  mem : ∀ i, i.val ≠ 0 → ∀ m, some m ∉ s.queue i

theorem Quiet.step {R : Ring n S M} {s s' : Sys n S M} (h : Quiet s) (hs : R.Step s s') :
    Quiet s' ∧ (∀ i, (s'.thread i).st = (s.thread i).st) ∧
      (∑ i, (s'.thread i).phase.pot) < ∑ i, (s.thread i).phase.pot := by
  obtain ⟨i, hi⟩ := hs
  have hpot : ∀ t : Thread S M, t.phase.pot < (s.thread i).phase.pot →
      (∑ j, ((Function.update s.thread i t) j).phase.pot) < ∑ j, (s.thread j).phase.pot := by
    intro t ht
    have := sum_change (F := fun j => (s.thread j).phase.pot)
      (F' := fun j => ((Function.update s.thread i t) j).phase.pot) i (fun j hj => by simp only [Function.update_of_ne hj])
    simp only [Function.update_self] at this
    omega
  have hst : ∀ p : Phase M, ∀ j, ((Function.update s.thread i ⟨(s.thread i).st, p⟩) j).st = (s.thread j).st := by
    intro p j
    by_cases hj : j = i
    · subst hj; simp
    · simp [hj]
  have mk : ∀ (p : Phase M) (q : Fin n → List (Option M)), p ≠ .recv → (∀ outs, p ≠ .send outs) →
      (∀ j, j.val ≠ 0 → ∀ m, some m ∉ q j) → Quiet (⟨Function.update s.thread i ⟨(s.thread i).st, p⟩, q⟩ : Sys n S M) := by
    intro p q hp1 hp2 hq
    refine ⟨?_, ?_, ?_, hq⟩
    · intro j hj
      by_cases hj' : j = i
      · subst hj'; simpa using hp1
      · simpa [hj'] using h.first j hj
    · intro j outs
      by_cases hj' : j = i
      · subst hj'; simpa using hp2 outs
      · simpa [hj'] using h.nosend j outs
    · intro j m r hj hr
      exact hq j hj m (by simp only at hr; rw [hr]; exact List.mem_cons_self)
  refine stepT_cases (P := fun s' => Quiet s' ∧ (∀ i, (s'.thread i).st = (s.thread i).st) ∧
      (∑ i, (s'.thread i).phase.pot) < ∑ i, (s.thread i).phase.pot) hi ?_ ?_ ?_ ?_ ?_ ?_ ?_
  · intro m q st outs hp hq _
    by_cases h0 : i.val = 0
    · exact absurd hp (h.first i h0)
    · exact absurd hq (h.queues i m q h0)
  · intro m q st hp hq _
    by_cases h0 : i.val = 0
    · exact absurd hp (h.first i h0)
    · exact absurd hq (h.queues i m q h0)
  · intro q hp hq
    refine ⟨mk _ _ (by simp) (by simp) ?_, hst _, hpot _ (by rw [hp]; simp [Phase.pot])⟩
    intro j hj m hm
    by_cases hj' : j = i
    · subst hj'; simp only [Function.update_self] at hm
      exact h.mem j hj m (by rw [hq]; exact List.mem_cons_of_mem _ hm)
    · simp only [Function.update_of_ne hj'] at hm
      exact h.mem j hj m hm
  · intro hp; exact absurd hp (h.nosend i _)
  · intro m outs hp _; exact absurd hp (h.nosend i _)
  · intro hp _
    refine ⟨mk _ _ (by simp) (by simp) ?_, hst _, hpot _ (by rw [hp]; simp [Phase.pot])⟩
    intro j hj m hm
    by_cases hj' : j = next i
    · subst hj'; simp only [Function.update_self, List.mem_append, List.mem_singleton, reduceCtorEq, or_false] at hm
      exact h.mem _ hj m hm
    · simp only [Function.update_of_ne hj'] at hm
      exact h.mem j hj m hm
  · intro hp _
    exact ⟨mk _ _ (by simp) (by simp) (fun j hj m => h.mem j hj m), hst _, hpot _ (by rw [hp]; simp [Phase.pot])⟩

theorem Quiet.finish {R : Ring n S M} (hn : 2 ≤ n) (hc : R.Conserving isBuf credit) {N : Nat} {x : Fin n → Nat}
    (hN : 0 < N) (hcap : ∀ i, N + x i + 1 ≤ R.cap (next i)) (s : Sys n S M) (hI : Inv isBuf credit N x s) (h : Quiet s) :
    ∃ k z, R.Steps k s z ∧ Finished z ∧ ∀ i, (z.thread i).st = (s.thread i).st := by
  generalize hp : (∑ i, (s.thread i).phase.pot) = p
  induction p using Nat.strong_induction_on generalizing s with
  | _ p ih =>
    by_cases hf : Finished s
    · exact ⟨0, s, .refl _, hf, fun _ => rfl⟩
    · obtain ⟨s', hs'⟩ := hI.progress hN hcap hf
      obtain ⟨h1, h2, h3⟩ := h.step hs'
      obtain ⟨k, z, hz1, hz2, hz3⟩ := ih _ (by rw [← hp]; exact h3) s' (hI.step hn hc hs') h1 rfl
      exact ⟨k + 1, z, .cons hs' hz1, hz2, fun i => (hz3 i).trans (h2 i)⟩

theorem runSeq_exec {n : Nat} {credit : Fin (n + 2) → S → Nat} {R : Ring (n + 2) S M} (hc : R.Conserving isBuf credit)
    {N : Nat} {x : Fin (n + 2) → Nat} (hN : 0 < N) (hcap : ∀ i, N + x i + 1 ≤ R.cap (next i)) (fuel : Nat)
    (st st' : Fin (n + 2) → S) (ms : List M) (hI : Inv isBuf credit N x (initial st ms))
    (h : R.runSeq fuel st ms = some st') :
    ∃ k z, R.Steps k (initial st ms) z ∧ Finished z ∧ ∀ i, (z.thread i).st = st' i := by
  have hn : 2 ≤ n + 2 := by omega
  induction fuel generalizing st ms with
  | zero => simp [Ring.runSeq] at h
  | succ fuel ih =>
    cases ms with
    | nil => simp [Ring.runSeq] at h
    | cons m ms =>
      rw [Ring.runSeq] at h
      cases hs : R.step 0 (st 0) m with
      | mk s0 o =>
        rw [hs] at h
        cases o with
        | none =>
          simp only [Option.some.injEq] at h
          have h1 : R.stepT 0 (initial st (m :: ms)) = some ⟨Function.update (initial st (m :: ms)).thread 0 ⟨s0, .closing⟩,
              Function.update (initial st (m :: ms)).queue 0 (ms.map some)⟩ := by
            rw [stepT_of (t := ⟨s0, .closing⟩) (e := .pop)]
            · simp [applyEffect, initial]
            · simp [Ring.act, initial, hs]
          have hI1 := hI.step hn hc ⟨0, h1⟩
          obtain ⟨k, z, hz1, hz2, hz3⟩ := Quiet.finish hn hc hN hcap _ hI1 (by
            refine ⟨?_, ?_, ?_, ?_⟩
            · intro i hi
              rw [show i = 0 from Fin.ext hi]; simp
            · intro i outs
              by_cases hi : i = 0
              · subst hi; simp
              · simp [hi, initial]
            · intro i m' q hi
              have : i ≠ 0 := fun h => hi (by rw [h]; rfl)
              simp [this, initial]
            · intro i hi m'
              have : i ≠ 0 := fun h => hi (by rw [h]; rfl)
              simp [this, initial])
          refine ⟨k + 1, z, .cons ⟨0, h1⟩ hz1, hz2, ?_⟩
          intro i
          rw [hz3 i, ← h]
          by_cases hi : i = 0
          · subst hi; simp
          · simp [hi, initial]
        | some outs =>
          simp only at h
          cases hp : R.pass (List.finRange (n + 2)) st [m] with
          | none => rw [hp] at h; simp at h
          | some r =>
            obtain ⟨st1, xs⟩ := r
            rw [hp] at h
            simp only at h
            rw [List.finRange_succ, Ring.pass] at hp
            cases hstg : R.stage 0 (st 0) [m] with
            | none => rw [hstg] at hp; simp at hp
            | some r =>
              obtain ⟨s1, outs1⟩ := r
              rw [hstg] at hp
              simp only at hp
              obtain ⟨j1, hj1⟩ := stage_exec hn hc hcap 0 [m] _ hI (st 0) s1 outs1 (ms.map some) rfl
                (by simp [initial]) hstg
              have hI1 := hI.steps hn hc hj1
              have heq : (⟨Function.update (initial st (m :: ms)).thread 0 ⟨s1, Phase.recv⟩,
                  Function.update (Function.update (initial st (m :: ms)).queue 0 (ms.map some)) (next 0)
                    ((initial st (m :: ms)).queue (next 0) ++ outs1.map some)⟩ : Sys (n + 2) S M) =
                  hold (Function.update st 0 s1) 1 outs1 ms := by
                have hnx : (next (0 : Fin (n + 2))).val = 1 := by
                  unfold next; rw [dif_pos (by simp)]; rfl
                unfold hold initial
                congr 1
                · funext j
                  by_cases hj : j = 0
                  · subst hj; simp
                  · simp [hj]
                · funext j
                  by_cases hj : j = next 0
                  · subst hj; simp [hnx]
                  · rw [Function.update_of_ne hj]
                    have hj1 : j.val ≠ 1 := fun h => hj (Fin.ext (by omega))
                    by_cases hj0 : j = 0
                    · subst hj0; simp
                    · have : j.val ≠ 0 := fun h => hj0 (Fin.ext h)
                      rw [Function.update_of_ne hj0]; simp only [if_neg this, if_neg hj1]
              rw [heq] at hj1 hI1
              obtain ⟨j2, hj2⟩ := pass_exec hn hc hcap _ 1 (le_refl _)
                (by
                  rw [List.map_map]
                  apply List.ext_getElem
                  · simp
                  · intro a h1 h2
                    simp; omega) _ _ _ _ ms (by omega) hI1 hp
              have hI2 := hI1.steps hn hc hj2
              obtain ⟨k, z, hz1, hz2, hz3⟩ := ih _ _ hI2 h
              exact ⟨j1 + (j2 + k), z, hj1.trans (hj2.trans hz1), hz2, hz3⟩

/-- One round of two threads. -/
theorem runSeq2 {R : Ring 2 S M} {fuel : Nat} {st : Fin 2 → S} {m m0 m1 : M} {ms : List M} {s0 s1 : S}
    (h0 : R.step 0 (st 0) m = (s0, some [m0])) (h1 : R.step 1 (st 1) m0 = (s1, some [m1])) :
    ∃ st', st' 0 = s0 ∧ st' 1 = s1 ∧ R.runSeq (fuel + 1) st (m :: ms) = R.runSeq fuel st' (ms ++ [m1]) := by
  refine ⟨Function.update (Function.update st 0 s0) 1 s1, rfl, rfl, ?_⟩
  rw [Ring.runSeq, h0]
  have hf : List.finRange (1 + 1) = [0, 1] := by decide
  simp only [hf, Ring.pass, Ring.stage, h0, Option.map_some, List.append_nil,
    Function.update_of_ne (show (1 : Fin 2) ≠ 0 by decide), h1]

/-- One round of three threads. -/
theorem runSeq3 {R : Ring 3 S M} {fuel : Nat} {st : Fin 3 → S} {m m0 m1 m2 : M} {ms : List M} {s0 s1 s2 : S}
    (h0 : R.step 0 (st 0) m = (s0, some [m0])) (h1 : R.step 1 (st 1) m0 = (s1, some [m1]))
    (h2 : R.step 2 (st 2) m1 = (s2, some [m2])) :
    ∃ st', st' 0 = s0 ∧ st' 1 = s1 ∧ st' 2 = s2 ∧ R.runSeq (fuel + 1) st (m :: ms) = R.runSeq fuel st' (ms ++ [m2]) := by
  refine ⟨Function.update (Function.update (Function.update st 0 s0) 1 s1) 2 s2, rfl, rfl, rfl, ?_⟩
  rw [Ring.runSeq, h0]
  have hf : List.finRange (2 + 1) = [0, 1, 2] := by decide
  simp only [hf, Ring.pass, Ring.stage, h0, Option.map_some, List.append_nil,
    Function.update_of_ne (show (1 : Fin 3) ≠ 0 by decide), h1, Function.update_of_ne (show (2 : Fin 3) ≠ 0 by decide),
    Function.update_of_ne (show (2 : Fin 3) ≠ 1 by decide), h2]

/-- The last round: the reader leaves its loop. -/
theorem runSeq_end {n : Nat} {R : Ring (n + 1) S M} {fuel : Nat} {st : Fin (n + 1) → S} {ms : List M}
    (hms : ms ≠ []) (h : ∀ m ∈ ms, R.step 0 (st 0) m = (st 0, none)) : R.runSeq (fuel + 1) st ms = some st := by
  cases ms with
  | nil => exact absurd rfl hms
  | cons m ms =>
    rw [Ring.runSeq, h m List.mem_cons_self]
    simp

end Verif.Pipeline
