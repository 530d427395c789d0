import Verif.Lemmas.ProgressLive
/-!
# Lemmas: under a fair scheduler the command ends
-/

namespace Verif.Progress

/-! ### Owners of locks can move -/

theorem main_with_c {c : Cfg} {s : St} (h : Inv s) (hc : s.cOwner = some .main) : (stepMain c s).isSome = true := by
  have := h.cMain.1 hc
  cases hm : s.mpc <;> rw [hm] at this <;> simp only [MPc.inC] at this <;> first
    | cases this
    | skip
  · simp only [stepMain, hm]; split <;> rfl
  · simp only [stepMain, hm]; rfl

theorem runner_c_s {s : St} (h : Inv s) (hc : s.cOwner = some .runner) : s.sOwner = some .runner := by
  have h1 := h.cRun.1 hc
  apply h.sRun.2
  cases hr : s.rpc with
  | p w k => rw [hr] at h1; cases k <;> first | rfl | cases h1
  | _ => rw [hr] at h1; cases h1

theorem c_owner {s : St} (h : Inv s) : s.cOwner = none ∨ s.cOwner = some .main ∨ s.cOwner = some .runner := by
  cases hc : s.cOwner with
  | none => exact Or.inl rfl
  | some t =>
    cases t with
    | main => exact Or.inr (Or.inl rfl)
    | runner => exact Or.inr (Or.inr rfl)
    | logger => exact absurd hc h.cOth.1
    | worker i => exact absurd hc (h.cOth.2 i)

theorem main_with_s {c : Cfg} {s : St} (h : Inv s) (hso : s.sOwner = some .main) : (stepMain c s).isSome = true := by
  rcases c_owner h with hfree | hfree | hfree
  · have hm := h.sMain hso
    have hL := h.legal
    cases hm' : s.mpc <;> rw [hm'] at hm hL <;> simp only [MPc.inS, MPc.callable] at hm hL <;> first
      | (simp at hm; done)
      | (simp [stepMain, hm', hfree]; done)
      | skip
    · cases ht : s.todo with
      | nil => rw [ht, hso] at hL; simp [Legal] at hL
      | cons x k =>
        rw [ht, hso] at hL
        simp only [stepMain, hm', ht]
        cases x <;> simp only [Legal] at hL <;> simp only [beginCall] <;> first
          | (simp at hL; done)
          | rfl
          | (repeat' split) <;> rfl
    · simp only [stepMain, hm']; split <;> rfl
  · exact main_with_c h hfree
  · have := runner_c_s h hfree
    rw [hso] at this; cases this

theorem runner_with_s {c : Cfg} {s : St} (h : Inv s) (hm : stepMain c s = none) (hso : s.sOwner = some .runner) :
    (stepRunner c s).isSome = true := by
  have hh := h.sRun.1 hso
  cases hr : s.rpc with
  | p w k =>
    cases k with
    | acqS => rw [hr] at hh; cases hh
    | acqC =>
      rcases c_owner h with hc | hc | hc
      · simp [stepRunner, hr, hc]
      · have := main_with_c (c := c) h hc; rw [hm] at this; cases this
      · have := h.cRun.1 hc; rw [hr] at this; cases this
    | emit => simp only [stepRunner, hr]; split <;> rfl
    | relC => simp [stepRunner, hr]
    | relS => simp [stepRunner, hr]
  | _ => rw [hr] at hh; cases hh

def MPc.waitsRunner : MPc → Bool
  | .st3w | .st4w | .sp4w => true
  | _ => false

def MPc.waitsLogger : MPc → Bool
  | .ls1w | .lp2w => true
  | _ => false

theorem no_poll_runner {s : St} (h : Inv s) (hw : s.mpc.waitsRunner = true) : ¬ Polls s .runner := by
  rintro (⟨_, hr, hd⟩ | ⟨e, _⟩)
  · have hph := h.phase
    rw [hr, hd] at hph
    revert hw hph
    cases s.mpc <;> simp [MPc.waitsRunner, phaseOk, RPc.inFirst]
  · cases e

theorem no_poll_logger {s : St} (h : Inv s) (hw : s.mpc.waitsLogger = true) : ¬ Polls s .logger := by
  rintro (⟨e, _⟩ | ⟨_, hr, hd⟩)
  · cases e
  · have hph := h.lphase
    rw [hr, hd] at hph
    revert hw hph
    cases s.mpc <;> simp [MPc.waitsLogger, lphaseOk]

/-- When the lock on the statistics is free and the thread that runs the command cannot move, it waits for the pipeline, the
reporter or the log, and that one can move. -/
theorem stuck {c : Cfg} {s : St} (h : Inv s) (ho : s.over = false) (hso : s.sOwner = none) (hm0 : stepMain c s = none) :
    (∃ (i : Nat) (d : Nat) (r : List Nat), s.ws[i]? = some (Worker.mk (d :: r) false))
      ∨ (s.mpc.waitsRunner = true ∧ (stepRunner c s).isSome = true)
      ∨ (s.mpc.waitsLogger = true ∧ (stepLogger s).isSome = true) := by
  have hc : s.cOwner = none := by
    rcases c_owner h with hc | hc | hc
    · exact hc
    · have := main_with_c (c := c) h hc; rw [hm0] at this; cases this
    · have := runner_c_s h hc; rw [hso] at this; cases this
  have hph := h.phase
  have hlph := h.lphase
  have contra : (stepMain c s).isSome = true → False := by intro e; rw [hm0] at e; cases e
  have worker_ok : (s.ws.all fun w => w.rounds.isEmpty) = false → ∃ (i : Nat) (d : Nat) (r : List Nat), s.ws[i]? = some (Worker.mk (d :: r) false) := by
    intro hw
    rw [List.all_eq_false] at hw
    obtain ⟨w, hmem, hne⟩ := hw
    obtain ⟨i, hi⟩ := List.getElem?_of_mem hmem
    obtain ⟨rounds, holding⟩ := w
    cases rounds with
    | nil => simp at hne
    | cons d r =>
      cases holding
      · exact ⟨i, d, r, hi⟩
      · have := (h.sWork i).2 ⟨d, r, hi⟩
        rw [hso] at this; cases this
  have runner_ok : s.rpc ≠ .r0w → s.rpc ≠ .r1w → s.rpc ≠ .r2w → s.rpc ≠ .done → (stepRunner c s).isSome = true := by
    intro h1 h2 h3 h4
    cases hr : s.rpc <;> simp only [stepRunner, hr] <;> first
      | (rw [hr] at h1; exact absurd rfl h1)
      | (rw [hr] at h2; exact absurd rfl h2)
      | (rw [hr] at h3; exact absurd rfl h3)
      | (rw [hr] at h4; exact absurd rfl h4)
      | rfl
      | (split <;> rfl)
      | skip
    rename_i w k
    cases k <;> simp only [hso, hc] <;> first | rfl | (split <;> rfl)
  have logger_ok : s.lpc ≠ .l0w → s.lpc ≠ .l1w → s.lpc ≠ .done → (stepLogger s).isSome = true := by
    intro h1 h2 h3
    cases hr : s.lpc <;> simp only [stepLogger, hr, hso] <;> first
      | (rw [hr] at h1; exact absurd rfl h1)
      | (rw [hr] at h2; exact absurd rfl h2)
      | (rw [hr] at h3; exact absurd rfl h3)
      | rfl
      | (split <;> rfl)
  cases hm : s.mpc with
  | idle =>
    left
    cases ht : s.todo with
    | nil =>
      apply worker_ok
      simpa [St.over, hm, ht] using ho
    | cons x k =>
      cases x with
      | join =>
        cases hj : (s.ws.all fun w => w.rounds.isEmpty) with
        | false => exact worker_ok hj
        | true => exact (contra (by simp only [stepMain, hm, ht, beginCall, hj]; rfl)).elim
      | _ =>
        refine (contra ?_).elim
        simp only [stepMain, hm, ht, beginCall, hso]
        first
          | rfl
          | (repeat' split) <;> rfl
  | st3w =>
    rw [hm] at hph
    have : s.rpc = .r0 := by simpa [phaseOk] using (by simpa [phaseOk] using hph : _ ∧ _).2
    exact Or.inr (Or.inl ⟨rfl, runner_ok (by simp [this]) (by simp [this]) (by simp [this]) (by simp [this])⟩)
  | st4w =>
    rw [hm] at hph
    have : s.rpc.inFirst = true ∨ s.rpc = .r1 := by simpa [phaseOk] using (by simpa [phaseOk] using hph : _ ∧ _).2
    refine Or.inr (Or.inl ⟨rfl, ?_⟩)
    refine runner_ok ?_ ?_ ?_ ?_ <;> rcases this with e | e <;> first
      | (rw [e]; simp; done)
      | (intro e'; rw [e'] at e; cases e)
  | sp4w =>
    rw [hm] at hph
    have : (s.started = true ∧ s.down = true) ∧ ((s.rpc.inLoop = true ∨ s.rpc.inFinal = true) ∨ s.rpc = .r2) := by
      simpa [phaseOk] using hph
    obtain ⟨_, this⟩ := this
    refine Or.inr (Or.inl ⟨rfl, ?_⟩)
    refine runner_ok ?_ ?_ ?_ ?_ <;> rcases this with (e | e) | e <;> first
      | (rw [e]; simp; done)
      | (intro e'; rw [e'] at e; cases e)
  | ls1w =>
    rw [hm] at hlph
    have : s.lpc = .l0 := by simpa [lphaseOk] using (by simpa [lphaseOk] using hlph : _ ∧ _).2
    exact Or.inr (Or.inr ⟨rfl, logger_ok (by simp [this]) (by simp [this]) (by simp [this])⟩)
  | lp2w =>
    rw [hm] at hlph
    have : (s.lstarted = true ∧ s.ldown = true) ∧ (s.lpc.inLoop = true ∨ s.lpc = .l1) := by simpa [lphaseOk] using hlph
    obtain ⟨_, this⟩ := this
    refine Or.inr (Or.inr ⟨rfl, ?_⟩)
    refine logger_ok ?_ ?_ ?_ <;> rcases this with e | e <;> first
      | (rw [e]; simp; done)
      | (intro e'; rw [e'] at e; cases e)
  | _ =>
    refine (contra ?_).elim
    simp only [stepMain, hm, hso, hc]
    first
      | rfl
      | (split <;> rfl)

/-! ### What the reporter and the log change -/

/-- The work of the command and of its pipeline that is left. -/
def St.work (s : St) : Nat := 8 * s.todo.length + s.mpc.weight + (s.ws.map Worker.weight).sum

theorem work_runner {c : Cfg} {s s' : St} (hs : stepRunner c s = some s') :
    s'.work ≤ s.work ∧ (s'.work = s.work → s'.mpc = s.mpc) ∧ s'.todo = s.todo ∧ s'.ws = s.ws ∧ s'.lpc = s.lpc := by
  obtain ⟨mpc, todo, rpc, lpc, ws, so, co, started, down, active, ls, ld, units, ctx, out, log, crash⟩ := s
  cases rpc
  case r0 =>
    simp only [stepRunner] at hs
    cases mpc <;> simp only [MPc.startReleased] at hs <;> cases hs <;> simp [St.work, MPc.weight]
  case r1 =>
    simp only [stepRunner] at hs
    cases mpc <;> simp only [MPc.startReleased] at hs <;> cases hs <;> simp [St.work, MPc.weight]
  case r2 =>
    simp only [stepRunner] at hs
    cases mpc <;> simp only [MPc.downReleased] at hs <;> cases hs <;> simp [St.work, MPc.weight]
  case p w k =>
    cases k <;> simp only [stepRunner] at hs <;> (repeat' split at hs) <;> first
      | contradiction
      | (cases hs; simp [St.work])
  all_goals
    simp only [stepRunner] at hs
    (repeat' split at hs) <;> first
      | contradiction
      | (cases hs; simp [St.work]; done)

theorem work_logger {s s' : St} (hs : stepLogger s = some s') :
    s'.work ≤ s.work ∧ (s'.work = s.work → s'.mpc = s.mpc) ∧ s'.todo = s.todo ∧ s'.ws = s.ws ∧ s'.rpc = s.rpc := by
  obtain ⟨mpc, todo, rpc, lpc, ws, so, co, started, down, active, ls, ld, units, ctx, out, log, crash⟩ := s
  cases lpc
  case l0 =>
    simp only [stepLogger] at hs
    cases mpc <;> simp only [MPc.logStartReleased] at hs <;> cases hs <;> simp [St.work, MPc.weight]
  case l1 =>
    simp only [stepLogger] at hs
    cases mpc <;> simp only [MPc.logDownReleased] at hs <;> cases hs <;> simp [St.work, MPc.weight]
  all_goals
    simp only [stepLogger] at hs
    (repeat' split at hs) <;> first
      | contradiction
      | (cases hs; simp [St.work]; done)

theorem work_worker {s s' : St} {i : Nat} (hs : stepWorker i s = some s') : s'.work < s.work := by
  simp only [stepWorker] at hs
  split at hs
  · cases hs
  · cases hs
  · rename_i d r hw
    cases hs
    have := sum_set (f := Worker.weight) (w' := ⟨r, false⟩) hw (by simp [Worker.weight]; omega)
    simp only [St.work]; omega
  · rename_i d r hw
    split at hs
    · cases hs
      have := sum_set (f := Worker.weight) (w' := ⟨d :: r, true⟩) hw (by simp [Worker.weight])
      simp only [St.work]; omega
    · cases hs

theorem work_main {c : Cfg} {s s' : St} (hs : stepMain c s = some s') : s'.work < s.work := by
  obtain ⟨mpc, todo, rpc, lpc, ws, so, co, started, down, active, ls, ld, units, ctx, out, log, crash⟩ := s
  cases mpc
  case idle =>
    cases todo with
    | nil => simp [stepMain] at hs
    | cons x k =>
      cases x <;> simp only [stepMain, beginCall] at hs <;> (repeat' split at hs) <;> cases hs <;>
        simp only [St.work, MPc.weight, List.length_cons] <;> omega
  all_goals
    simp only [stepMain] at hs
    (repeat' split at hs) <;> first
      | contradiction
      | (cases hs; simp only [St.work, MPc.weight]; omega)

/-- The reporter's own work goes down when the work of the command does not change and it does not poll. -/
theorem rpc_weight {c : Cfg} {s s' : St} (hs : stepRunner c s = some s') (hp : ¬ Polls s .runner) (hw : s'.work = s.work) :
    s'.rpc.weight < s.rpc.weight := by
  have h1 := weight_runner hs hp
  obtain ⟨_, h2, h3, h4, h5⟩ := work_runner hs
  have h6 := h2 hw
  simp only [St.weight, h3, h4, h5, h6] at h1
  omega

theorem lpc_weight {s s' : St} (hs : stepLogger s = some s') (hp : ¬ Polls s .logger) (hw : s'.work = s.work) :
    s'.lpc.weight < s.lpc.weight := by
  have h1 := weight_logger hs hp
  obtain ⟨_, h2, h3, h4, h5⟩ := work_logger hs
  have h6 := h2 hw
  simp only [St.weight, h3, h4, h5, h6] at h1
  omega

/-! ### Numbers cannot go down for ever -/

theorem eventually_const {f : Nat → Nat} (h : ∀ n, f (n + 1) ≤ f n) : ∃ N, ∀ n, N ≤ n → f n = f N := by
  have le : ∀ a b, a ≤ b → f b ≤ f a := by
    intro a b hab
    induction hab with
    | refl => exact Nat.le_refl _
    | step _ ih => exact Nat.le_trans (h _) ih
  have key : ∀ v k, f k ≤ v → ∃ N, ∀ n, N ≤ n → f n = f N := by
    intro v
    induction v with
    | zero => intro k hk; exact ⟨k, fun n hn => by have := le k n hn; omega⟩
    | succ v ih =>
      intro k hk
      by_cases hx : ∃ n, k ≤ n ∧ f n < f k
      · obtain ⟨n, _, hlt⟩ := hx
        exact ih n (by omega)
      · refine ⟨k, fun n hn => ?_⟩
        have h1 := le k n hn
        have h2 : ¬ f n < f k := fun hlt => hx ⟨n, hn, hlt⟩
        omega
  exact key (f 0) 0 (Nat.le_refl _)

theorem no_descent {f : Nat → Nat} {n : Nat} (h : ∀ m, n ≤ m → f (m + 1) ≤ f m)
    (h' : ∀ m, n ≤ m → ∃ k, m ≤ k ∧ f (k + 1) < f k) : False := by
  obtain ⟨N, hN⟩ := eventually_const (f := fun k => f (n + k)) (fun k => h (n + k) (Nat.le_add_right _ _))
  obtain ⟨k, hk, hlt⟩ := h' (n + N) (Nat.le_add_right _ _)
  have e1 := hN (k - n) (by omega)
  have e2 := hN (k + 1 - n) (by omega)
  try simp only at e1 e2
  rw [show n + (k - n) = k by omega] at e1
  rw [show n + (k + 1 - n) = k + 1 by omega] at e2
  omega

/-! ### The end -/

theorem exec_cases (c : Cfg) (s : St) (σ : Nat → Tid) (n : Nat) :
    (step c (exec c s σ n) (σ n) = none ∧ exec c s σ (n + 1) = exec c s σ n)
      ∨ step c (exec c s σ n) (σ n) = some (exec c s σ (n + 1)) := by
  cases hs : step c (exec c s σ n) (σ n) with
  | none => left; exact ⟨rfl, by rw [exec, hs]⟩
  | some s' => right; rw [exec, hs]

theorem inv_exec {c : Cfg} {s : St} (h : Inv s) (σ : Nat → Tid) : ∀ n, Inv (exec c s σ n)
  | 0 => h
  | n + 1 => by
    rcases exec_cases c s σ n with ⟨_, e⟩ | e
    · rw [e]; exact inv_exec h σ n
    · exact inv_step (inv_exec h σ n) e

theorem work_step {c : Cfg} {s s' : St} {t : Tid} (hs : step c s t = some s') : s'.work ≤ s.work := by
  cases t with
  | main => exact Nat.le_of_lt (work_main hs)
  | runner => exact (work_runner hs).1
  | logger => exact (work_logger hs).1
  | worker i => exact Nat.le_of_lt (work_worker hs)

theorem fair_ends {c : Cfg} {s : St} (h : Inv s) {σ : Nat → Tid} (hf : Fair c s σ) : ∃ n, (exec c s σ n).over = true := by
  by_cases hno : ∃ n, (exec c s σ n).over = true
  · exact hno
  · exfalso
    have hno : ∀ n, (exec c s σ n).over = false := by
      intro n
      cases e : (exec c s σ n).over with
      | false => rfl
      | true => exact absurd ⟨n, e⟩ hno
    have hI := inv_exec (c := c) h σ
    have hcase := exec_cases c s σ
    unfold Fair at hf
    generalize hS : exec c s σ = S at hf hno hI hcase
    -- from some point on the command and its pipeline do not get anywhere
    obtain ⟨N, hN⟩ := eventually_const (f := fun n => (S n).work) (by
      intro n
      rcases hcase n with ⟨_, e⟩ | e
      · rw [e]; exact Nat.le_refl _
      · exact work_step e)
    have hN1 : ∀ n, N ≤ n → (S (n + 1)).work = (S n).work := by
      intro n hn
      rw [hN (n + 1) (by omega), hN n hn]
    have hmove : ∀ n, N ≤ n → S (n + 1) = S n ∨ stepRunner c (S n) = some (S (n + 1)) ∧ σ n = .runner
        ∨ stepLogger (S n) = some (S (n + 1)) ∧ σ n = .logger := by
      intro n hn
      rcases hcase n with ⟨_, e⟩ | e
      · exact Or.inl e
      · cases ht : σ n with
        | main => rw [ht] at e; have := work_main (c := c) e; rw [hN1 n hn] at this; omega
        | runner => rw [ht] at e; exact Or.inr (Or.inl ⟨e, rfl⟩)
        | logger => rw [ht] at e; exact Or.inr (Or.inr ⟨e, rfl⟩)
        | worker i => rw [ht] at e; have := work_worker (i := i) e; rw [hN1 n hn] at this; omega
    have hfix : ∀ n, N ≤ n → (S n).mpc = (S N).mpc ∧ (S n).todo = (S N).todo ∧ (S n).ws = (S N).ws := by
      intro n hn
      induction hn with
      | refl => exact ⟨rfl, rfl, rfl⟩
      | @step n hn ih =>
        have hn : N ≤ n := hn
        rcases hmove n hn with e | ⟨e, _⟩ | ⟨e, _⟩
        · rw [Nat.succ_eq_add_one, e]; exact ih
        · obtain ⟨_, h2, h3, h4, _⟩ := work_runner e
          have h2 := h2 (hN1 n hn)
          rw [Nat.succ_eq_add_one, h2, h3, h4]; exact ih
        · obtain ⟨_, h2, h3, h4, _⟩ := work_logger e
          have h2 := h2 (hN1 n hn)
          rw [Nat.succ_eq_add_one, h2, h3, h4]; exact ih
    -- fairness for the command and for the pipeline
    have hmain : ∃ M, N ≤ M ∧ ∀ m, M ≤ m → stepMain c (S m) = none := by
      by_cases hx : ∀ n, ∃ m, n ≤ m ∧ (step c (S m) .main).isSome = true
      · obtain ⟨m, hm, ht, hen⟩ := hf .main hx N
        rcases hcase m with ⟨e, _⟩ | e
        · rw [ht] at e; rw [e] at hen; cases hen
        · rw [ht] at e; have := work_main (c := c) e; rw [hN1 m hm] at this; omega
      · simp only [not_forall, not_exists, not_and] at hx
        obtain ⟨n, hn⟩ := hx
        refine ⟨max n N, Nat.le_max_right _ _, fun m hm => ?_⟩
        have := hn m (Nat.le_trans (Nat.le_max_left _ _) hm)
        simpa [step] using this
    obtain ⟨M, hNM, hM⟩ := hmain
    have hworker : ∀ i, ¬ ∀ n, ∃ m, n ≤ m ∧ (step c (S m) (.worker i)).isSome = true := by
      intro i hx
      obtain ⟨m, hm, ht, hen⟩ := hf (.worker i) hx N
      rcases hcase m with ⟨e, _⟩ | e
      · rw [ht] at e; rw [e] at hen; cases hen
      · rw [ht] at e; have := work_worker (i := i) e; rw [hN1 m hm] at this; omega
    -- the lock on the statistics is free again and again
    have hfree : ∀ n, M ≤ n → ∃ m, n ≤ m ∧ (S m).sOwner = none := by
      intro n hn
      by_cases hx : ∃ m, n ≤ m ∧ (S m).sOwner = none
      · exact hx
      · exfalso
        have hx : ∀ m, n ≤ m → (S m).sOwner ≠ none := fun m hm e => hx ⟨m, hm, e⟩
        cases ho : (S n).sOwner with
        | none => exact hx n (Nat.le_refl _) ho
        | some t =>
          cases t with
          | main => have := main_with_s (c := c) (hI n) ho; rw [hM n hn] at this; cases this
          | worker i =>
            obtain ⟨d, r, hw⟩ := ((hI n).sWork i).1 ho
            refine hworker i (fun k => ⟨max k N, Nat.le_max_left _ _, ?_⟩)
            have e1 := (hfix (max k N) (Nat.le_max_right _ _)).2.2
            have e2 := (hfix n (by omega)).2.2
            rw [e2, ← e1] at hw
            simp [step, stepWorker, hw]
          | logger =>
            have hall : ∀ m, n ≤ m → (S m).sOwner = some .logger := by
              intro m hm
              induction hm with
              | refl => exact ho
              | @step m hm ih =>
                have hm : n ≤ m := hm
                rw [Nat.succ_eq_add_one]
                rcases hmove m (by omega) with e | ⟨e, _⟩ | ⟨e, _⟩
                · rw [e]; exact ih
                · have hr : (S m).rpc.holdsS = false := by
                    cases hh : (S m).rpc.holdsS with
                    | false => rfl
                    | true => have := (hI m).sRun.2 hh; rw [ih] at this; cases this
                  simp only [stepRunner] at e
                  (repeat' split at e) <;> first
                    | contradiction
                    | (rename_i hk; rw [ih] at hk; cases hk; done)
                    | (injection e with e; rw [← e]; exact ih)
                    | (rename_i hk; rw [hk] at hr; cases hr; done)
                    | skip
                  all_goals
                    rename_i hk _ _
                    rw [hk] at hr; cases hr
                · have := (hI m).sLog.1 ih
                  simp only [stepLogger, this] at e
                  injection e with e
                  have := hx (m + 1) (by omega)
                  rw [← e] at this
                  exact absurd rfl this
            have hen : ∀ m, n ≤ m → (step c (S m) .logger).isSome = true := by
              intro m hm
              have := (hI m).sLog.1 (hall m hm)
              simp [step, stepLogger, this]
            obtain ⟨m, hm, ht, _⟩ := hf .logger (fun k => ⟨max k n, Nat.le_max_left _ _, hen _ (Nat.le_max_right _ _)⟩) n
            have hw := (hI m).sLog.1 (hall m hm)
            rcases hcase m with ⟨e, _⟩ | e
            · rw [ht] at e; have := hen m hm; rw [e] at this; cases this
            · rw [ht] at e
              simp only [step, stepLogger, hw] at e
              injection e with e
              have := hx (m + 1) (by omega)
              rw [← e] at this
              exact absurd rfl this
          | runner =>
            have hall : ∀ m, n ≤ m → (S m).sOwner = some .runner := by
              intro m hm
              induction hm with
              | refl => exact ho
              | @step m hm ih =>
                have hm : n ≤ m := hm
                rw [Nat.succ_eq_add_one]
                have hr := (hI m).sRun.1 ih
                rcases hmove m (by omega) with e | ⟨e, _⟩ | ⟨e, _⟩
                · rw [e]; exact ih
                · have hx' := hx (m + 1) (by omega)
                  cases hrr : (S m).rpc with
                  | p w k =>
                    cases k with
                    | acqS => rw [hrr] at hr; cases hr
                    | acqC =>
                      simp only [stepRunner, hrr] at e
                      split at e
                      · injection e with e; rw [← e]; exact ih
                      · cases e
                    | emit =>
                      simp only [stepRunner, hrr] at e
                      split at e <;> (injection e with e; rw [← e]; exact ih)
                    | relC =>
                      simp only [stepRunner, hrr] at e
                      injection e with e; rw [← e]; exact ih
                    | relS =>
                      simp only [stepRunner, hrr] at e
                      injection e with e
                      rw [← e] at hx'
                      exact absurd rfl hx'
                  | _ => rw [hrr] at hr; cases hr
                · have hl : (S m).lpc ≠ .write := by
                    intro hl; have := (hI m).sLog.2 hl; rw [ih] at this; cases this
                  simp only [stepLogger] at e
                  (repeat' split at e) <;> first
                    | contradiction
                    | (rename_i hk; rw [ih] at hk; cases hk; done)
                    | (injection e with e; rw [← e]; exact ih)
            have hen : ∀ m, n ≤ m → (step c (S m) .runner).isSome = true :=
              fun m hm => runner_with_s (hI m) (hM m (by omega)) (hall m hm)
            have hnp : ∀ m, n ≤ m → ¬ Polls (S m) .runner := by
              intro m hm hp
              have hr := (hI m).sRun.1 (hall m hm)
              rcases hp with ⟨_, e, _⟩ | ⟨e, _⟩
              · rw [e] at hr; cases hr
              · cases e
            refine no_descent (f := fun k => (S k).rpc.weight) (n := n) ?_ ?_
            · intro m hm
              rcases hmove m (by omega) with e | ⟨e, _⟩ | ⟨e, _⟩
              · simp only [e]; exact Nat.le_refl _
              · exact Nat.le_of_lt (rpc_weight e (hnp m hm) (hN1 m (by omega)))
              · simp only [(work_logger e).2.2.2.2]; exact Nat.le_refl _
            · intro m hm
              obtain ⟨k, hk, ht, hek⟩ := hf .runner
                (fun j => ⟨max j n, Nat.le_max_left _ _, hen _ (Nat.le_max_right _ _)⟩) m
              refine ⟨k, hk, ?_⟩
              rcases hcase k with ⟨e, _⟩ | e
              · rw [ht] at e; rw [e] at hek; cases hek
              · rw [ht] at e
                exact rpc_weight e (hnp k (by omega)) (hN1 k (by omega))
    -- so the one it waits for moves again and again
    obtain ⟨m0, hm0, hs0⟩ := hfree M (Nat.le_refl _)
    rcases stuck (hI m0) (hno m0) hs0 (hM m0 hm0) with ⟨i, d, r, hw⟩ | ⟨hw, _⟩ | ⟨hw, _⟩
    · refine hworker i (fun k => ?_)
      obtain ⟨m, hm, hs⟩ := hfree (max k M) (Nat.le_max_right _ _)
      refine ⟨m, by omega, ?_⟩
      have e1 := (hfix m (by omega)).2.2
      have e2 := (hfix m0 (by omega)).2.2
      rw [e2, ← e1] at hw
      simp [step, stepWorker, hw, hs]
    · have hwait : ∀ m, M ≤ m → (S m).mpc.waitsRunner = true := by
        intro m hm
        rw [(hfix m (by omega)).1, ← (hfix m0 (by omega)).1]; exact hw
      have hen : ∀ k, ∃ m, k ≤ m ∧ (step c (S m) .runner).isSome = true := by
        intro k
        obtain ⟨m, hm, hs⟩ := hfree (max k M) (Nat.le_max_right _ _)
        have hw := hwait m (by omega)
        rcases stuck (hI m) (hno m) hs (hM m (by omega)) with ⟨i, d, r, hx⟩ | ⟨_, e⟩ | ⟨e, _⟩
        · exfalso
          refine hworker i (fun k => ?_)
          obtain ⟨m', hm', hs'⟩ := hfree (max k M) (Nat.le_max_right _ _)
          refine ⟨m', by omega, ?_⟩
          have e1 := (hfix m' (by omega)).2.2
          have e2 := (hfix m (by omega)).2.2
          rw [e2, ← e1] at hx
          simp [step, stepWorker, hx, hs']
        · exact ⟨m, by omega, e⟩
        · revert hw e; cases (S m).mpc <;> simp [MPc.waitsRunner, MPc.waitsLogger]
      refine no_descent (f := fun k => (S k).rpc.weight) (n := M) ?_ ?_
      · intro m hm
        rcases hmove m (by omega) with e | ⟨e, _⟩ | ⟨e, _⟩
        · simp only [e]; exact Nat.le_refl _
        · exact Nat.le_of_lt (rpc_weight e (no_poll_runner (hI m) (hwait m hm)) (hN1 m (by omega)))
        · simp only [(work_logger e).2.2.2.2]; exact Nat.le_refl _
      · intro m hm
        obtain ⟨k, hk, ht, hek⟩ := hf .runner hen m
        refine ⟨k, hk, ?_⟩
        rcases hcase k with ⟨e, _⟩ | e
        · rw [ht] at e; rw [e] at hek; cases hek
        · rw [ht] at e
          exact rpc_weight e (no_poll_runner (hI k) (hwait k (by omega))) (hN1 k (by omega))
    · have hwait : ∀ m, M ≤ m → (S m).mpc.waitsLogger = true := by
        intro m hm
        rw [(hfix m (by omega)).1, ← (hfix m0 (by omega)).1]; exact hw
      have hen : ∀ k, ∃ m, k ≤ m ∧ (step c (S m) .logger).isSome = true := by
        intro k
        obtain ⟨m, hm, hs⟩ := hfree (max k M) (Nat.le_max_right _ _)
        have hw := hwait m (by omega)
        rcases stuck (hI m) (hno m) hs (hM m (by omega)) with ⟨i, d, r, hx⟩ | ⟨e, _⟩ | ⟨_, e⟩
        · exfalso
          refine hworker i (fun k => ?_)
          obtain ⟨m', hm', hs'⟩ := hfree (max k M) (Nat.le_max_right _ _)
          refine ⟨m', by omega, ?_⟩
          have e1 := (hfix m' (by omega)).2.2
          have e2 := (hfix m (by omega)).2.2
          rw [e2, ← e1] at hx
          simp [step, stepWorker, hx, hs']
        · revert hw e; cases (S m).mpc <;> simp [MPc.waitsRunner, MPc.waitsLogger]
        · exact ⟨m, by omega, e⟩
      refine no_descent (f := fun k => (S k).lpc.weight) (n := M) ?_ ?_
      · intro m hm
        rcases hmove m (by omega) with e | ⟨e, _⟩ | ⟨e, _⟩
        · simp only [e]; exact Nat.le_refl _
        · simp only [(work_runner e).2.2.2.2]; exact Nat.le_refl _
        · exact Nat.le_of_lt (lpc_weight e (no_poll_logger (hI m) (hwait m hm)) (hN1 m (by omega)))
      · intro m hm
        obtain ⟨k, hk, ht, hek⟩ := hf .logger hen m
        refine ⟨k, hk, ?_⟩
        rcases hcase k with ⟨e, _⟩ | e
        · rw [ht] at e; rw [e] at hek; cases hek
        · rw [ht] at e
          exact lpc_weight e (no_poll_logger (hI k) (hwait k (by omega))) (hN1 k (by omega))

end Verif.Progress
