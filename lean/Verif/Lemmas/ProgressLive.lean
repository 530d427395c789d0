import Verif.Lemmas.Progress
import Mathlib.Algebra.BigOperators.Group.List.Basic
/-!
# Lemmas: somebody can always go on, and going on ends
-/

namespace Verif.Progress

def Stage.weight : Stage → Nat
  | .acqS => 5 | .acqC => 4 | .emit => 3 | .relC => 2 | .relS => 1

def RPc.weight : RPc → Nat
  | .done => 0 | .r2w => 1 | .r2 => 2
  | .p .final k => 2 + k.weight
  | .chk => 8
  | .p .loop k => 8 + k.weight
  | .act => 14 | .slp => 15
  | .r1w => 9 | .r1 => 10
  | .p .first k => 10 + k.weight
  | .r0w => 16 | .r0 => 17

def MPc.weight : MPc → Nat
  | .idle => 0
  | .st1 => 6 | .st2 => 5 | .st3 => 4 | .st3w => 3 | .st4 => 2 | .st4w => 1
  | .pa1 => 4 | .pa2 => 3 | .pa3 => 2 | .pa4 => 1
  | .sp1 => 5 | .sp2 => 4 | .sp3 => 3 | .sp4 => 2 | .sp4w => 1
  | .ls1 => 2 | .ls1w => 1
  | .lp1 => 3 | .lp2 => 2 | .lp2w => 1

def LPc.weight : LPc → Nat
  | .done => 0 | .l1w => 1 | .l1 => 2
  | .chk => 3 | .write => 4 | .acq => 5 | .slp => 6
  | .l0w => 4 | .l0 => 5

def Worker.weight (w : Worker) : Nat := 2 * w.rounds.length + if w.holding then 0 else 1

def St.weight (s : St) : Nat :=
  8 * s.todo.length + s.mpc.weight + s.rpc.weight + s.lpc.weight + (s.ws.map Worker.weight).sum

/-- The thread only looks at the flag and goes to sleep again. -/
def Polls (s : St) (t : Tid) : Prop :=
  (t = .runner ∧ s.rpc = .chk ∧ s.down = false) ∨ (t = .logger ∧ s.lpc = .chk ∧ s.ldown = false)

theorem sum_set {f : Worker → Nat} : ∀ {ws : List Worker} {i : Nat} {w w' : Worker}, ws[i]? = some w → f w' < f w →
    ((ws.set i w').map f).sum < (ws.map f).sum
  | [], _, _, _, h, _ => by simp at h
  | a :: ws, 0, w, w', h, hf => by
    simp only [List.getElem?_cons_zero, Option.some.injEq] at h
    subst h
    simp [List.set, hf]
  | a :: ws, i + 1, w, w', h, hf => by
    simp only [List.getElem?_cons_succ] at h
    have := sum_set h hf
    simpa [List.set] using this

theorem weight_main {c : Cfg} {s s' : St} (hs : stepMain c s = some s') : s'.weight < s.weight := by
  obtain ⟨mpc, todo, rpc, lpc, ws, so, co, started, down, active, ls, ld, units, ctx, out, log, crash⟩ := s
  cases mpc
  case idle =>
    cases todo with
    | nil => simp [stepMain] at hs
    | cons x k =>
      cases x <;> simp only [stepMain, beginCall] at hs <;> (repeat' split at hs) <;> cases hs <;>
        simp only [St.weight, MPc.weight, List.length_cons] <;> omega
  case st3 =>
    simp only [stepMain] at hs
    cases rpc <;> simp only [RPc.startReleased] at hs <;> cases hs <;>
      simp only [St.weight, MPc.weight, RPc.weight, Stage.weight] <;> omega
  case st4 =>
    simp only [stepMain] at hs
    cases rpc <;> simp only [RPc.startReleased] at hs <;> cases hs <;>
      simp only [St.weight, MPc.weight, RPc.weight, Stage.weight] <;> omega
  case sp4 =>
    simp only [stepMain] at hs
    cases rpc <;> simp only [RPc.downReleased] at hs <;> cases hs <;>
      simp only [St.weight, MPc.weight, RPc.weight, Stage.weight] <;> omega
  case ls1 =>
    simp only [stepMain] at hs
    cases lpc <;> simp only [LPc.startReleased] at hs <;> cases hs <;>
      simp only [St.weight, MPc.weight, LPc.weight] <;> omega
  case lp2 =>
    simp only [stepMain] at hs
    cases lpc <;> simp only [LPc.downReleased] at hs <;> cases hs <;>
      simp only [St.weight, MPc.weight, LPc.weight] <;> omega
  all_goals
    simp only [stepMain] at hs
    (repeat' split at hs) <;> first
      | contradiction
      | (cases hs; simp only [St.weight, MPc.weight]; omega)

theorem weight_runner {c : Cfg} {s s' : St} (hs : stepRunner c s = some s') (hp : ¬ Polls s .runner) :
    s'.weight < s.weight := by
  obtain ⟨mpc, todo, rpc, lpc, ws, so, co, started, down, active, ls, ld, units, ctx, out, log, crash⟩ := s
  cases rpc
  case r0 =>
    simp only [stepRunner] at hs
    cases mpc <;> simp only [MPc.startReleased] at hs <;> cases hs <;>
      simp only [St.weight, MPc.weight, RPc.weight, Stage.weight] <;> omega
  case r1 =>
    simp only [stepRunner] at hs
    cases mpc <;> simp only [MPc.startReleased] at hs <;> cases hs <;>
      simp only [St.weight, MPc.weight, RPc.weight, Stage.weight] <;> omega
  case r2 =>
    simp only [stepRunner] at hs
    cases mpc <;> simp only [MPc.downReleased] at hs <;> cases hs <;>
      simp only [St.weight, MPc.weight, RPc.weight, Stage.weight] <;> omega
  case chk =>
    simp only [stepRunner] at hs
    cases down
    · exact absurd (Or.inl ⟨rfl, rfl, rfl⟩) hp
    · simp only [if_true] at hs
      cases hs
      simp only [St.weight, RPc.weight, Stage.weight]; omega
  case p w k =>
    cases k <;> simp only [stepRunner] at hs <;> (repeat' split at hs) <;> first
      | contradiction
      | (cases hs; cases w <;> simp only [St.weight, RPc.weight, Stage.weight, afterPrint] <;> omega)
  all_goals
    simp only [stepRunner] at hs
    (repeat' split at hs) <;> first
      | contradiction
      | (cases hs; simp only [St.weight, RPc.weight, Stage.weight]; omega)

theorem weight_logger {s s' : St} (hs : stepLogger s = some s') (hp : ¬ Polls s .logger) : s'.weight < s.weight := by
  obtain ⟨mpc, todo, rpc, lpc, ws, so, co, started, down, active, ls, ld, units, ctx, out, log, crash⟩ := s
  cases lpc
  case l0 =>
    simp only [stepLogger] at hs
    cases mpc <;> simp only [MPc.logStartReleased] at hs <;> cases hs <;>
      simp only [St.weight, MPc.weight, LPc.weight] <;> omega
  case l1 =>
    simp only [stepLogger] at hs
    cases mpc <;> simp only [MPc.logDownReleased] at hs <;> cases hs <;>
      simp only [St.weight, MPc.weight, LPc.weight] <;> omega
  case chk =>
    simp only [stepLogger] at hs
    cases ld
    · exact absurd (Or.inr ⟨rfl, rfl, rfl⟩) hp
    · simp only [if_true] at hs
      cases hs
      simp only [St.weight, LPc.weight]; omega
  all_goals
    simp only [stepLogger] at hs
    (repeat' split at hs) <;> first
      | contradiction
      | (cases hs; simp only [St.weight, LPc.weight]; omega)

theorem weight_worker {s s' : St} {i : Nat} (hs : stepWorker i s = some s') : s'.weight < s.weight := by
  simp only [stepWorker] at hs
  split at hs
  · cases hs
  · cases hs
  · rename_i d r hw
    cases hs
    have := sum_set (f := Worker.weight) (w' := ⟨r, false⟩) hw (by simp [Worker.weight]; omega)
    simp only [St.weight]; omega
  · rename_i d r hw
    split at hs
    · cases hs
      have := sum_set (f := Worker.weight) (w' := ⟨d :: r, true⟩) hw (by simp [Worker.weight])
      simp only [St.weight]; omega
    · cases hs

theorem weight_step {c : Cfg} {s s' : St} {t : Tid} (hs : step c s t = some s') (hp : ¬ Polls s t) :
    s'.weight < s.weight := by
  cases t with
  | main => exact weight_main hs
  | runner => exact weight_runner hs hp
  | logger => exact weight_logger hs hp
  | worker i => exact weight_worker hs

/-- Somebody can move who is not just polling. -/
theorem can_move {c : Cfg} {s : St} (h : Inv s) (ho : s.over = false) : ∃ t, (step c s t).isSome = true ∧ ¬ Polls s t := by
  have main_ok : (stepMain c s).isSome = true → ∃ t, (step c s t).isSome = true ∧ ¬ Polls s t :=
    fun e => ⟨.main, e, by simp [Polls]⟩
  have main_c : s.cOwner = some .main → (stepMain c s).isSome = true := by
    intro hc
    have := h.cMain.1 hc
    cases hm : s.mpc <;> rw [hm] at this <;> simp only [MPc.inC] at this <;> first
      | cases this
      | skip
    · simp only [stepMain, hm]; split <;> rfl
    · simp only [stepMain, hm]; rfl
  cases hso : s.sOwner with
  | some t =>
    cases t with
    | worker i =>
      obtain ⟨d, r, hw⟩ := (h.sWork i).1 hso
      exact ⟨.worker i, by simp [step, stepWorker, hw], by simp [Polls]⟩
    | logger =>
      have := h.sLog.1 hso
      exact ⟨.logger, by simp [step, stepLogger, this], by simp [Polls, this]⟩
    | runner =>
      have hh := h.sRun.1 hso
      cases hr : s.rpc with
      | p w k =>
        have hp : ¬ Polls s .runner := by simp [Polls, hr]
        cases k with
        | acqS => rw [hr] at hh; cases hh
        | acqC =>
          cases hc : s.cOwner with
          | none => exact ⟨.runner, by simp [step, stepRunner, hr, hc], hp⟩
          | some t =>
            cases t with
            | main => exact main_ok (main_c hc)
            | runner => have := h.cRun.1 hc; rw [hr] at this; cases this
            | logger => exact absurd hc h.cOth.1
            | worker i => exact absurd hc (h.cOth.2 i)
        | emit =>
          refine ⟨.runner, ?_, hp⟩
          simp only [step, stepRunner, hr]
          split <;> rfl
        | relC => exact ⟨.runner, by simp [step, stepRunner, hr], hp⟩
        | relS => exact ⟨.runner, by simp [step, stepRunner, hr], hp⟩
      | _ => rw [hr] at hh; cases hh
    | main =>
      apply main_ok
      have hnr : s.cOwner ≠ some .runner := by
        intro hc
        have h1 := h.cRun.1 hc
        have h2 : s.rpc.holdsS = true := by
          cases hr : s.rpc with
          | p w k => rw [hr] at h1; cases k <;> first | rfl | cases h1
          | _ => rw [hr] at h1; cases h1
        have := h.sRun.2 h2
        rw [hso] at this; cases this
      have hfree : s.cOwner = none ∨ s.cOwner = some .main := by
        cases hc : s.cOwner with
        | none => exact Or.inl rfl
        | some t =>
          cases t with
          | main => exact Or.inr rfl
          | runner => exact absurd hc hnr
          | logger => exact absurd hc h.cOth.1
          | worker i => exact absurd hc (h.cOth.2 i)
      rcases hfree with hfree | hfree
      · have hm := h.sMain hso
        have hL := h.legal
        cases hm' : s.mpc <;> rw [hm'] at hm hL <;> simp only [MPc.inS, MPc.callable] at hm hL <;> first
          | (simp at hm; done)
          | (simp [stepMain, hm', hfree]; done)
          | skip
        · cases ht : s.todo with
          | nil => rw [ht, hso] at hL; simp [Legal] at hL
          | cons x k =>
            rw [ht, hso] at hL
            simp only [stepMain, hm', ht]
            cases x <;> simp only [Legal] at hL <;> simp only [beginCall] <;> first
              | (simp at hL; done)
              | rfl
              | (repeat' split) <;> rfl
        · simp only [stepMain, hm']; split <;> rfl
      · exact main_c hfree
  | none =>
    cases hc : s.cOwner with
    | some t =>
      cases t with
      | main => exact main_ok (main_c hc)
      | runner =>
        have h1 := h.cRun.1 hc
        have h2 : s.rpc.holdsS = true := by
          cases hr : s.rpc with
          | p w k => rw [hr] at h1; cases k <;> first | rfl | cases h1
          | _ => rw [hr] at h1; cases h1
        have := h.sRun.2 h2
        rw [hso] at this; cases this
      | logger => exact absurd hc h.cOth.1
      | worker i => exact absurd hc (h.cOth.2 i)
    | none =>
      have hph := h.phase
      have hlph := h.lphase
      have worker_ok : (s.ws.all fun w => w.rounds.isEmpty) = false →
          ∃ t, (step c s t).isSome = true ∧ ¬ Polls s t := by
        intro hw
        rw [List.all_eq_false] at hw
        obtain ⟨w, hmem, hne⟩ := hw
        obtain ⟨i, hi⟩ := List.getElem?_of_mem hmem
        refine ⟨.worker i, ?_, by simp [Polls]⟩
        obtain ⟨rounds, holding⟩ := w
        cases rounds with
        | nil => simp at hne
        | cons d r =>
          cases holding
          · simp [step, stepWorker, hi, hso]
          · simp [step, stepWorker, hi]
      have runner_ok : s.rpc ≠ .r0w → s.rpc ≠ .r1w → s.rpc ≠ .r2w → s.rpc ≠ .done → (s.rpc = .chk → s.down = true) →
          ∃ t, (step c s t).isSome = true ∧ ¬ Polls s t := by
        intro h1 h2 h3 h4 h5
        refine ⟨.runner, ?_, ?_⟩
        · cases hr : s.rpc <;> simp only [step, stepRunner, hr] <;> first
            | (rw [hr] at h1; exact absurd rfl h1)
            | (rw [hr] at h2; exact absurd rfl h2)
            | (rw [hr] at h3; exact absurd rfl h3)
            | (rw [hr] at h4; exact absurd rfl h4)
            | rfl
            | (split <;> rfl)
            | skip
          rename_i w k
          cases k <;> simp only [hso, hc] <;> first | rfl | (split <;> rfl)
        · intro hp
          rcases hp with ⟨_, e, e'⟩ | ⟨e, _⟩
          · rw [h5 e] at e'; cases e'
          · cases e
      have logger_ok : s.lpc ≠ .l0w → s.lpc ≠ .l1w → s.lpc ≠ .done → (s.lpc = .chk → s.ldown = true) →
          ∃ t, (step c s t).isSome = true ∧ ¬ Polls s t := by
        intro h1 h2 h3 h5
        refine ⟨.logger, ?_, ?_⟩
        · cases hr : s.lpc <;> simp only [step, stepLogger, hr, hso] <;> first
            | (rw [hr] at h1; exact absurd rfl h1)
            | (rw [hr] at h2; exact absurd rfl h2)
            | (rw [hr] at h3; exact absurd rfl h3)
            | rfl
            | (split <;> rfl)
        · intro hp
          rcases hp with ⟨e, _⟩ | ⟨_, e, e'⟩
          · cases e
          · rw [h5 e] at e'; cases e'
      cases hm : s.mpc with
      | idle =>
        cases ht : s.todo with
        | nil =>
          apply worker_ok
          simpa [St.over, hm, ht] using ho
        | cons x k =>
          cases x with
          | join =>
            cases hj : (s.ws.all fun w => w.rounds.isEmpty) with
            | false => exact worker_ok hj
            | true => exact main_ok (by simp only [stepMain, hm, ht, beginCall, hj]; rfl)
          | _ =>
            apply main_ok
            simp only [stepMain, hm, ht, beginCall, hso]
            first
              | rfl
              | (repeat' split) <;> rfl
      | st3w =>
        rw [hm] at hph
        have : s.rpc = .r0 := by simpa [phaseOk] using (by simpa [phaseOk] using hph : _ ∧ _).2
        exact runner_ok (by simp [this]) (by simp [this]) (by simp [this]) (by simp [this]) (by simp [this])
      | st4w =>
        rw [hm] at hph
        have : s.rpc.inFirst = true ∨ s.rpc = .r1 := by simpa [phaseOk] using (by simpa [phaseOk] using hph : _ ∧ _).2
        refine runner_ok ?_ ?_ ?_ ?_ ?_ <;> rcases this with e | e <;> first
          | (rw [e]; simp; done)
          | (intro e'; rw [e'] at e; cases e)
      | sp4w =>
        rw [hm] at hph
        have : (s.started = true ∧ s.down = true) ∧ ((s.rpc.inLoop = true ∨ s.rpc.inFinal = true) ∨ s.rpc = .r2) := by
          simpa [phaseOk] using hph
        obtain ⟨⟨_, hd⟩, this⟩ := this
        refine runner_ok ?_ ?_ ?_ ?_ (fun _ => hd) <;> rcases this with (e | e) | e <;> first
          | (rw [e]; simp; done)
          | (intro e'; rw [e'] at e; cases e)
      | ls1w =>
        rw [hm] at hlph
        have : s.lpc = .l0 := by simpa [lphaseOk] using (by simpa [lphaseOk] using hlph : _ ∧ _).2
        exact logger_ok (by simp [this]) (by simp [this]) (by simp [this]) (by simp [this])
      | lp2w =>
        rw [hm] at hlph
        have : (s.lstarted = true ∧ s.ldown = true) ∧ (s.lpc.inLoop = true ∨ s.lpc = .l1) := by
          simpa [lphaseOk] using hlph
        obtain ⟨⟨_, hd⟩, this⟩ := this
        refine logger_ok ?_ ?_ ?_ (fun _ => hd) <;> rcases this with e | e <;> first
          | (rw [e]; simp; done)
          | (intro e'; rw [e'] at e; cases e)
      | _ =>
        apply main_ok
        simp only [stepMain, hm, hso, hc]
        first
          | rfl
          | (split <;> rfl)

theorem reaches_end {c : Cfg} : ∀ (n : Nat) (s : St), s.weight ≤ n → Inv s → ∃ ts, (run c s ts).over = true := by
  intro n
  induction n with
  | zero =>
    intro s hw h
    cases ho : s.over with
    | true => exact ⟨[], ho⟩
    | false =>
      obtain ⟨t, ht, hp⟩ := can_move (c := c) h ho
      obtain ⟨s', hs⟩ := Option.isSome_iff_exists.1 ht
      have := weight_step hs hp
      omega
  | succ n ih =>
    intro s hw h
    cases ho : s.over with
    | true => exact ⟨[], ho⟩
    | false =>
      obtain ⟨t, ht, hp⟩ := can_move (c := c) h ho
      obtain ⟨s', hs⟩ := Option.isSome_iff_exists.1 ht
      have := weight_step hs hp
      obtain ⟨ts, hts⟩ := ih s' (by omega) (inv_step h hs)
      refine ⟨t :: ts, ?_⟩
      rw [run, hs]
      exact hts

end Verif.Progress
