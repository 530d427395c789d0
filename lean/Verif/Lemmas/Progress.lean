import Verif.Spec.Progress
/-!
# Lemmas: the invariant of the progress reporter
-/

namespace Verif.Progress

def RPc.holdsS : RPc → Bool
  | .p _ .acqS => false
  | .p _ _ => true
  | _ => false

def RPc.holdsC : RPc → Bool
  | .p _ .emit => true
  | .p _ .relC => true
  | _ => false

def MPc.inS : MPc → Bool
  | .st2 | .sp2 => true
  | _ => false

def MPc.inC : MPc → Bool
  | .pa2 | .pa4 => true
  | _ => false

def MPc.callable : MPc → Bool
  | .idle | .pa1 | .pa2 | .pa3 | .pa4 => true
  | _ => false

def RPc.inFirst : RPc → Bool
  | .p .first _ => true
  | _ => false

def RPc.inLoop : RPc → Bool
  | .p .loop _ => true
  | .chk | .slp | .act => true
  | _ => false

def RPc.inFinal : RPc → Bool
  | .p .final _ => true
  | _ => false

def phaseOk (started down : Bool) (m : MPc) (r : RPc) : Bool :=
  match m with
  | .st1 | .st2 | .st3 => started && !down && (r == .r0 || r == .r0w)
  | .st3w => started && !down && (r == .r0)
  | .st4 => started && !down && (r.inFirst || r == .r1 || r == .r1w)
  | .st4w => started && !down && (r.inFirst || r == .r1)
  | .sp1 | .sp2 | .sp3 => started && !down && r.inLoop
  | .sp4 => started && down && (r.inLoop || r.inFinal || r == .r2 || r == .r2w)
  | .sp4w => started && down && (r.inLoop || r.inFinal || r == .r2)
  | _ => if !started then !down && (r == .r0 || r == .r0w) else if !down then r.inLoop else r == .done

def LPc.inLoop : LPc → Bool
  | .chk | .slp | .acq | .write => true
  | _ => false

def lphaseOk (started down : Bool) (m : MPc) (l : LPc) : Bool :=
  match m with
  | .ls1 => started && !down && (l == .l0 || l == .l0w)
  | .ls1w => started && !down && (l == .l0)
  | .lp1 => started && !down && l.inLoop
  | .lp2 => started && down && (l.inLoop || l == .l1 || l == .l1w)
  | .lp2w => started && down && (l.inLoop || l == .l1)
  | _ => if !started then !down && (l == .l0 || l == .l0w) else if !down then l.inLoop else l == .done

structure Inv (s : St) : Prop where
  sMain : s.sOwner = some .main → s.mpc.inS = true ∨ s.mpc.callable = true
  inS : s.mpc.inS = true → s.sOwner = some .main
  legal : Legal (decide (s.sOwner = some .main) && !s.mpc.inS) s.todo
  sRun : s.sOwner = some .runner ↔ s.rpc.holdsS = true
  sLog : s.sOwner = some .logger ↔ s.lpc = .write
  sWork : ∀ i : Nat, s.sOwner = some (.worker i) ↔ ∃ d r, s.ws[i]? = some (Worker.mk (d :: r) true)
  sIdle : ∀ i : Nat, s.ws[i]? ≠ some (Worker.mk [] true)
  cMain : s.cOwner = some .main ↔ s.mpc.inC = true
  cRun : s.cOwner = some .runner ↔ s.rpc.holdsC = true
  cOth : s.cOwner ≠ some .logger ∧ ∀ i, s.cOwner ≠ some (.worker i)
  phase : phaseOk s.started s.down s.mpc s.rpc = true
  lphase : lphaseOk s.lstarted s.ldown s.mpc s.lpc = true

theorem legal_append {h : Bool} {p q : List Call} (hp : Legal h p) (hq : Legal false q) : Legal h (p ++ q) := by
  induction p generalizing h with
  | nil => simp only [Legal] at hp; subst hp; exact hq
  | cons x p ih =>
    cases x <;> simp only [List.cons_append, Legal] at hp ⊢
    all_goals first | exact ⟨hp.1, ih hp.2⟩ | exact ih hp

theorem inv_init {prog : List Call} (h : Legal false prog) (pl : List (List Nat)) (u : Nat) : Inv (init prog pl u) where
  sMain := by simp [init]
  inS := by simp [init, MPc.inS]
  legal := by
    have : Legal false (prog ++ [.stop, .logStop]) := legal_append h (by simp [Legal])
    simpa [init] using this
  sRun := by simp [init, RPc.holdsS]
  sLog := by simp [init]
  sWork := by intro i; simp [init, List.getElem?_map]
  sIdle := by intro i; simp [init, List.getElem?_map]
  cMain := by simp [init, MPc.inC]
  cRun := by simp [init, RPc.holdsC]
  cOth := by simp [init]
  phase := by simp [init, phaseOk]
  lphase := by simp [init, lphaseOk]


/-! ### The phases -/

theorem ph_p {a b : Bool} {m : MPc} {w : Where} {k : Stage} (k' : Stage) (h : phaseOk a b m (.p w k) = true) :
    phaseOk a b m (.p w k') = true := by
  cases m <;> cases w <;> exact h

theorem ph_loop {a b : Bool} {m : MPc} {r r' : RPc} (hr : r.inLoop = true) (hr' : r'.inLoop = true)
    (h : phaseOk a b m r = true) : phaseOk a b m r' = true := by
  have e1 : ∀ x : RPc, x ≠ .r0 → x ≠ .r0w → x ≠ .r1 → x ≠ .r1w → x ≠ .r2 → x ≠ .r2w → x ≠ .done →
      (x == .r0) = false ∧ (x == .r0w) = false ∧ (x == .r1) = false ∧ (x == .r1w) = false ∧ (x == .r2) = false
        ∧ (x == .r2w) = false ∧ (x == .done) = false := by
    intro x h1 h2 h3 h4 h5 h6 h7
    simp [h1, h2, h3, h4, h5, h6, h7]
  have e2 : ∀ x : RPc, x.inLoop = true → x ≠ .r0 ∧ x ≠ .r0w ∧ x ≠ .r1 ∧ x ≠ .r1w ∧ x ≠ .r2 ∧ x ≠ .r2w ∧ x ≠ .done
      ∧ x.inFirst = false ∧ x.inFinal = false := by
    intro x hx
    cases x with
    | p w k => cases w <;> simp_all [RPc.inLoop, RPc.inFirst, RPc.inFinal]
    | _ => simp_all [RPc.inLoop, RPc.inFirst, RPc.inFinal]
  obtain ⟨a1, a2, a3, a4, a5, a6, a7, a8, a9⟩ := e2 r hr
  obtain ⟨b1, b2, b3, b4, b5, b6, b7, b8, b9⟩ := e2 r' hr'
  obtain ⟨c1, c2, c3, c4, c5, c6, c7⟩ := e1 r a1 a2 a3 a4 a5 a6 a7
  obtain ⟨d1, d2, d3, d4, d5, d6, d7⟩ := e1 r' b1 b2 b3 b4 b5 b6 b7
  cases m <;>
    simp only [phaseOk, c1, c2, c3, c4, c5, c6, c7, d1, d2, d3, d4, d5, d6, d7, a8, a9, b8, b9, hr, hr'] at h ⊢ <;> exact h

theorem ph_final {a : Bool} {m : MPc} {k : Stage} (h : phaseOk a true m .chk = true) :
    phaseOk a true m (.p .final k) = true := by
  cases a <;> cases m <;> first | rfl | cases h

theorem ph_r1 {a b : Bool} {m : MPc} {k : Stage} (h : phaseOk a b m (.p .first k) = true) : phaseOk a b m .r1 = true := by
  cases a <;> cases b <;> cases m <;> first | rfl | cases h

theorem ph_r2 {a b : Bool} {m : MPc} {k : Stage} (h : phaseOk a b m (.p .final k) = true) : phaseOk a b m .r2 = true := by
  cases a <;> cases b <;> cases m <;> first | rfl | cases h

theorem ph_after {a b : Bool} {m : MPc} {w : Where} {k : Stage} (h : phaseOk a b m (.p w k) = true) :
    phaseOk a b m (afterPrint w) = true := by
  cases w
  · exact ph_r1 h
  · exact ph_loop rfl rfl h
  · exact ph_r2 h

theorem lph_loop {a b : Bool} {m : MPc} {l l' : LPc} (hl : l.inLoop = true) (hl' : l'.inLoop = true)
    (h : lphaseOk a b m l = true) : lphaseOk a b m l' = true := by
  cases l <;> first | cases hl | skip
  all_goals cases l' <;> first | cases hl' | skip
  all_goals cases a <;> cases b <;> cases m <;> first | rfl | exact h | cases h

theorem lph_l1 {a : Bool} {m : MPc} (h : lphaseOk a true m .chk = true) : lphaseOk a true m .l1 = true := by
  cases a <;> cases m <;> first | rfl | cases h

/-! ### Waiting at a barrier -/

def MPc.waits : MPc → Bool
  | .st3w | .st4w | .sp4w | .ls1w | .lp2w => true
  | _ => false

/-- Nothing about locks changes when the thread that runs the command is released. -/
theorem inv_released {s : St} {m : MPc} {r : RPc} {l : LPc} (h : Inv s) (hw : s.mpc.waits = true)
    (hm : m = .idle ∨ m = .st4) (hr : r.holdsS = s.rpc.holdsS) (hr' : r.holdsC = s.rpc.holdsC)
    (hl : l = .write ↔ s.lpc = .write)
    (h1 : phaseOk s.started s.down m r = true) (h2 : lphaseOk s.lstarted s.ldown m l = true) :
    Inv { s with mpc := m, rpc := r, lpc := l } := by
  have hn : s.sOwner ≠ some .main := by
    intro e
    have := h.sMain e
    revert hw this
    cases s.mpc <;> simp [MPc.waits, MPc.inS, MPc.callable]
  have hS : s.mpc.inS = false := by revert hw; cases s.mpc <;> simp [MPc.waits, MPc.inS]
  have hC : s.mpc.inC = false := by revert hw; cases s.mpc <;> simp [MPc.waits, MPc.inC]
  have mS : m.inS = false := by rcases hm with rfl | rfl <;> rfl
  have mC : m.inC = false := by rcases hm with rfl | rfl <;> rfl
  refine ⟨fun e => absurd e hn, ?_, ?_, ?_, ?_, h.sWork, h.sIdle, ?_, ?_, h.cOth, h1, h2⟩
  · intro e; simp only at e; rw [mS] at e; cases e
  · have := h.legal; simp only [hS] at this; simp only [mS]; exact this
  · simp only [hr]; exact h.sRun
  · simp only [hl]; exact h.sLog
  · simp only [mC]; rw [← hC]; exact h.cMain
  · simp only [hr']; exact h.cRun

/-- The reporting thread moves without touching a lock and without releasing anybody. -/
theorem inv_rpc {s : St} {r : RPc} (h : Inv s) (hr : r.holdsS = s.rpc.holdsS) (hr' : r.holdsC = s.rpc.holdsC)
    (h1 : phaseOk s.started s.down s.mpc r = true) : Inv { s with rpc := r } :=
  ⟨h.sMain, h.inS, h.legal, by simp only [hr]; exact h.sRun, h.sLog, h.sWork, h.sIdle, h.cMain,
    by simp only [hr']; exact h.cRun, h.cOth, h1, h.lphase⟩

/-- The same for the thread that writes the log. -/
theorem inv_lpc {s : St} {l : LPc} (h : Inv s) (hl : l = .write ↔ s.lpc = .write)
    (h1 : lphaseOk s.lstarted s.ldown s.mpc l = true) : Inv { s with lpc := l } :=
  ⟨h.sMain, h.inS, h.legal, h.sRun, by simp only [hl]; exact h.sLog, h.sWork, h.sIdle, h.cMain, h.cRun, h.cOth, h.phase, h1⟩

/-- Output, counters, the log, the context and the flag `active` are not part of the invariant. -/
theorem inv_data {s : St} (h : Inv s) (u : Nat) (x : Ctx) (o : List Event) (g : Option Nat) (c a : Bool) :
    Inv { s with units := u, ctx := x, out := o, log := g, crash := c, active := a } :=
  ⟨h.sMain, h.inS, h.legal, h.sRun, h.sLog, h.sWork, h.sIdle, h.cMain, h.cRun, h.cOth, h.phase, h.lphase⟩

/-- A thread other than the one that runs the command takes or gives back the lock on the statistics. -/
theorem inv_so {s : St} {o : Option Tid} {r : RPc} {l : LPc} {ws : List Worker} (h : Inv s) (hs : s.sOwner ≠ some .main)
    (ho : o ≠ some .main) (h4 : o = some .runner ↔ r.holdsS = true) (h5 : o = some .logger ↔ l = .write)
    (h6 : ∀ i : Nat, o = some (.worker i) ↔ ∃ d q, ws[i]? = some (Worker.mk (d :: q) true))
    (h7 : ∀ i : Nat, ws[i]? ≠ some (Worker.mk [] true)) (h9 : r.holdsC = s.rpc.holdsC)
    (h11 : phaseOk s.started s.down s.mpc r = true) (h12 : lphaseOk s.lstarted s.ldown s.mpc l = true) :
    Inv { s with sOwner := o, rpc := r, lpc := l, ws := ws } := by
  have hS : s.mpc.inS = false := by
    cases e : s.mpc.inS with
    | false => rfl
    | true => exact absurd (h.inS e) hs
  refine ⟨fun e => absurd e ho, ?_, ?_, h4, h5, h6, h7, h.cMain, ?_, h.cOth, h11, h12⟩
  · intro e; simp only at e; rw [hS] at e; cases e
  · have := h.legal
    simp only [hs, decide_false, Bool.false_and] at this
    simp only [ho, decide_false, Bool.false_and]
    exact this
  · simp only [h9]; exact h.cRun

/-! ### The threads, one by one -/

theorem inv_runner {c : Cfg} {s s' : St} (h : Inv s) (hs : stepRunner c s = some s') : Inv s' := by
  have hph := h.phase
  have hlph := h.lphase
  cases hr : s.rpc with
  | r0w => simp [stepRunner, hr] at hs
  | r1w => simp [stepRunner, hr] at hs
  | r2w => simp [stepRunner, hr] at hs
  | done => simp [stepRunner, hr] at hs
  | r0 =>
    simp only [stepRunner, hr] at hs
    rw [hr] at hph
    cases hm : s.mpc.startReleased with
    | none =>
      simp only [hm] at hs; cases hs
      refine inv_rpc h (by rw [hr]; rfl) (by rw [hr]; rfl) ?_
      revert hm hph
      cases s.mpc <;> simp [MPc.startReleased, phaseOk, RPc.inFirst, RPc.inLoop, RPc.inFinal]
    | some m =>
      simp only [hm] at hs; cases hs
      refine inv_released h ?_ ?_ (by rw [hr]; rfl) (by rw [hr]; rfl) Iff.rfl ?_ ?_
      · revert hm; cases s.mpc <;> simp [MPc.startReleased, MPc.waits]
      · revert hm; cases s.mpc <;> simp [MPc.startReleased] <;> (rintro rfl; simp)
      · revert hm hph
        cases s.mpc <;> simp [MPc.startReleased, phaseOk, RPc.inFirst, RPc.inLoop, RPc.inFinal]
        all_goals (intro h1 h2 h3; subst h3; simp_all [phaseOk, RPc.inFirst])
      · revert hm hlph
        cases s.mpc <;> simp [MPc.startReleased] <;> (intro h rfl; exact h)
  | r1 =>
    simp only [stepRunner, hr] at hs
    rw [hr] at hph
    cases hm : s.mpc.startReleased with
    | none =>
      simp only [hm] at hs; cases hs
      refine inv_rpc h (by rw [hr]; rfl) (by rw [hr]; rfl) ?_
      revert hm hph
      cases s.mpc <;> simp [MPc.startReleased, phaseOk, RPc.inFirst, RPc.inLoop, RPc.inFinal]
    | some m =>
      simp only [hm] at hs; cases hs
      refine inv_released h ?_ ?_ (by rw [hr]; rfl) (by rw [hr]; rfl) Iff.rfl ?_ ?_
      · revert hm; cases s.mpc <;> simp [MPc.startReleased, MPc.waits]
      · revert hm; cases s.mpc <;> simp [MPc.startReleased] <;> (rintro rfl; simp)
      · revert hm hph
        cases s.mpc <;> simp [MPc.startReleased, phaseOk, RPc.inFirst, RPc.inLoop, RPc.inFinal]
        all_goals (intro h1 h2 h3; subst h3; simp_all [phaseOk, RPc.inLoop])
      · revert hm hlph
        cases s.mpc <;> simp [MPc.startReleased] <;> (intro h rfl; exact h)
  | r2 =>
    simp only [stepRunner, hr] at hs
    rw [hr] at hph
    cases hm : s.mpc.downReleased with
    | none =>
      simp only [hm] at hs; cases hs
      refine inv_rpc h (by rw [hr]; rfl) (by rw [hr]; rfl) ?_
      revert hm hph
      cases s.mpc <;> simp [MPc.downReleased, phaseOk, RPc.inFirst, RPc.inLoop, RPc.inFinal]
    | some m =>
      simp only [hm] at hs; cases hs
      refine inv_released h ?_ ?_ (by rw [hr]; rfl) (by rw [hr]; rfl) Iff.rfl ?_ ?_
      · revert hm; cases s.mpc <;> simp [MPc.downReleased, MPc.waits]
      · revert hm; cases s.mpc <;> simp [MPc.downReleased] <;> (rintro rfl; simp)
      · revert hm hph
        cases s.mpc <;> simp [MPc.downReleased, phaseOk, RPc.inFirst, RPc.inLoop, RPc.inFinal]
        all_goals (intro h1 h2 h3; subst h3; simp_all [phaseOk])
      · revert hm hlph
        cases s.mpc <;> simp [MPc.downReleased] <;> (intro h rfl; exact h)
  | chk =>
    simp only [stepRunner, hr] at hs
    rw [hr] at hph
    split at hs
    · rename_i hd
      cases hs
      refine inv_rpc h (by rw [hr]; rfl) (by rw [hr]; rfl) ?_
      rw [hd] at hph ⊢; exact ph_final hph
    · cases hs
      exact inv_rpc h (by rw [hr]; rfl) (by rw [hr]; rfl) (ph_loop rfl rfl hph)
  | slp =>
    simp only [stepRunner, hr] at hs
    rw [hr] at hph
    cases hs
    exact inv_rpc h (by rw [hr]; rfl) (by rw [hr]; rfl) (ph_loop rfl rfl hph)
  | act =>
    simp only [stepRunner, hr] at hs
    rw [hr] at hph
    split at hs <;> cases hs <;> exact inv_rpc h (by rw [hr]; rfl) (by rw [hr]; rfl) (ph_loop rfl rfl hph)
  | p w k =>
    rw [hr] at hph
    cases k with
    | acqS =>
      simp only [stepRunner, hr] at hs
      split at hs
      · rename_i hn
        cases hs
        refine inv_so h (by rw [hn]; simp) (by simp) (by simp [RPc.holdsS]) ?_ ?_ h.sIdle (by rw [hr]; rfl) (ph_p _ hph) hlph
        · have := h.sLog; rw [hn] at this; simpa using this
        · intro i; have := h.sWork i; rw [hn] at this; simpa using this
      · cases hs
    | acqC =>
      simp only [stepRunner, hr] at hs
      split at hs
      · rename_i hn
        cases hs
        have := h.cMain
        rw [hn] at this
        exact ⟨h.sMain, h.inS, h.legal, by have := h.sRun; rw [hr] at this; exact this, h.sLog, h.sWork, h.sIdle,
          by simpa using this, by simp [RPc.holdsC], by simp, ph_p _ hph, hlph⟩
      · cases hs
    | emit =>
      simp only [stepRunner, hr] at hs
      split at hs <;> cases hs
      · have := inv_rpc (r := .p w .relC) h (by rw [hr]; rfl) (by rw [hr]; rfl) (ph_p _ hph)
        exact inv_data this s.units s.ctx s.out s.log true s.active
      · have := inv_rpc (r := .p w .relC) h (by rw [hr]; rfl) (by rw [hr]; rfl) (ph_p _ hph)
        exact inv_data this s.units _ _ s.log s.crash s.active
    | relC =>
      simp only [stepRunner, hr] at hs
      cases hs
      have hc := h.cRun.2 (by rw [hr]; rfl)
      have := h.cMain
      rw [hc] at this
      exact ⟨h.sMain, h.inS, h.legal, by have := h.sRun; rw [hr] at this; exact this, h.sLog, h.sWork, h.sIdle,
        by simpa using this, by simp [RPc.holdsC], by simp, ph_p _ hph, hlph⟩
    | relS =>
      simp only [stepRunner, hr] at hs
      cases hs
      have hn := h.sRun.2 (by rw [hr]; rfl)
      refine inv_so h (by rw [hn]; simp) (by simp) ?_ ?_ ?_ h.sIdle ?_ (ph_after hph) hlph
      · cases w <;> simp [afterPrint, RPc.holdsS]
      · have := h.sLog; rw [hn] at this; simpa using this
      · intro i; have := h.sWork i; rw [hn] at this; simpa using this
      · rw [hr]; cases w <;> rfl

theorem inv_logger {s s' : St} (h : Inv s) (hs : stepLogger s = some s') : Inv s' := by
  have hph := h.phase
  have hlph := h.lphase
  cases hl : s.lpc with
  | l0w => simp [stepLogger, hl] at hs
  | l1w => simp [stepLogger, hl] at hs
  | done => simp [stepLogger, hl] at hs
  | l0 =>
    simp only [stepLogger, hl] at hs
    rw [hl] at hlph
    cases hm : s.mpc.logStartReleased with
    | none =>
      simp only [hm] at hs; cases hs
      refine inv_lpc h (by rw [hl]; simp) ?_
      revert hm hlph
      cases s.mpc <;> simp [MPc.logStartReleased, lphaseOk, LPc.inLoop]
    | some m =>
      simp only [hm] at hs; cases hs
      refine inv_released h ?_ ?_ rfl rfl (by rw [hl]; simp) ?_ ?_
      · revert hm; cases s.mpc <;> simp [MPc.logStartReleased, MPc.waits]
      · revert hm; cases s.mpc <;> simp [MPc.logStartReleased] <;> (rintro rfl; simp)
      · revert hm hph
        cases s.mpc <;> simp [MPc.logStartReleased] <;> (intro h rfl; exact h)
      · revert hm hlph
        cases s.mpc <;> simp [MPc.logStartReleased, lphaseOk, LPc.inLoop]
        all_goals (intro h1 h2 h3; subst h3; simp_all [lphaseOk, LPc.inLoop])
  | l1 =>
    simp only [stepLogger, hl] at hs
    rw [hl] at hlph
    cases hm : s.mpc.logDownReleased with
    | none =>
      simp only [hm] at hs; cases hs
      refine inv_lpc h (by rw [hl]; simp) ?_
      revert hm hlph
      cases s.mpc <;> simp [MPc.logDownReleased, lphaseOk, LPc.inLoop]
    | some m =>
      simp only [hm] at hs; cases hs
      refine inv_released h ?_ ?_ rfl rfl (by rw [hl]; simp) ?_ ?_
      · revert hm; cases s.mpc <;> simp [MPc.logDownReleased, MPc.waits]
      · revert hm; cases s.mpc <;> simp [MPc.logDownReleased] <;> (rintro rfl; simp)
      · revert hm hph
        cases s.mpc <;> simp [MPc.logDownReleased] <;> (intro h rfl; exact h)
      · revert hm hlph
        cases s.mpc <;> simp [MPc.logDownReleased, lphaseOk, LPc.inLoop]
        all_goals (intro h1 h2 h3; subst h3; simp_all [lphaseOk, LPc.inLoop])
  | chk =>
    simp only [stepLogger, hl] at hs
    rw [hl] at hlph
    split at hs
    · rename_i hd
      cases hs
      refine inv_lpc h (by rw [hl]; simp) ?_
      rw [hd] at hlph ⊢; exact lph_l1 hlph
    · cases hs
      exact inv_lpc h (by rw [hl]; simp) (lph_loop rfl rfl hlph)
  | slp =>
    simp only [stepLogger, hl] at hs
    rw [hl] at hlph
    cases hs
    exact inv_lpc h (by rw [hl]; simp) (lph_loop rfl rfl hlph)
  | acq =>
    simp only [stepLogger, hl] at hs
    rw [hl] at hlph
    split at hs
    · rename_i hn
      cases hs
      refine inv_so h (by rw [hn]; simp) (by simp) ?_ (by simp) ?_ h.sIdle rfl hph (lph_loop rfl rfl hlph)
      · have := h.sRun; rw [hn] at this; simpa using this
      · intro i; have := h.sWork i; rw [hn] at this; simpa using this
    · cases hs
  | write =>
    simp only [stepLogger, hl] at hs
    rw [hl] at hlph
    cases hs
    have hn := h.sLog.2 hl
    have := inv_so (o := none) (r := s.rpc) (l := .chk) (ws := s.ws) h (by rw [hn]; simp) (by simp)
      (by have := h.sRun; rw [hn] at this; simpa using this) (by simp)
      (by intro i; have := h.sWork i; rw [hn] at this; simpa using this) h.sIdle rfl hph (lph_loop rfl rfl hlph)
    exact inv_data this s.units s.ctx s.out (some s.units) s.crash s.active

theorem inv_worker {s s' : St} {i : Nat} (h : Inv s) (hs : stepWorker i s = some s') : Inv s' := by
  simp only [stepWorker] at hs
  split at hs
  · cases hs
  · cases hs
  · rename_i d r hw
    cases hs
    have hn := (h.sWork i).2 ⟨d, r, hw⟩
    have hi : i < s.ws.length := by
      rcases Nat.lt_or_ge i s.ws.length with hi | hi
      · exact hi
      · rw [List.getElem?_eq_none hi] at hw; cases hw
    have := inv_so (o := none) (r := s.rpc) (l := s.lpc) (ws := s.ws.set i ⟨r, false⟩) h (by rw [hn]; simp) (by simp)
      (by have := h.sRun; rw [hn] at this; simpa using this) (by have := h.sLog; rw [hn] at this; simpa using this)
      (by
        intro j
        simp only [reduceCtorEq, false_iff, not_exists]
        intro d' q'
        rw [List.getElem?_set]
        by_cases hij : i = j
        · subst hij; simp [hi]
        · rw [if_neg hij]
          intro hj
          have := (h.sWork j).2 ⟨d', q', hj⟩
          rw [hn] at this
          exact hij (by simpa using this))
      (by
        intro j
        rw [List.getElem?_set]
        by_cases hij : i = j
        · subst hij; simp [hi]
        · rw [if_neg hij]; exact h.sIdle j) rfl h.phase h.lphase
    exact inv_data this _ s.ctx s.out s.log s.crash s.active
  · rename_i d r hw
    split at hs
    · rename_i hn
      cases hs
      have hi : i < s.ws.length := by
        rcases Nat.lt_or_ge i s.ws.length with hi | hi
        · exact hi
        · rw [List.getElem?_eq_none hi] at hw; cases hw
      refine inv_so h (by rw [hn]; simp) (by simp) ?_ ?_ ?_ ?_ rfl h.phase h.lphase
      · have := h.sRun; rw [hn] at this; simpa using this
      · have := h.sLog; rw [hn] at this; simpa using this
      · intro j
        rw [List.getElem?_set]
        by_cases hij : i = j
        · subst hij
          simp only [if_true, hi]
          exact ⟨fun _ => ⟨d, r, rfl⟩, fun _ => trivial⟩
        · rw [if_neg hij]
          constructor
          · intro e; exact absurd (by simpa using e) hij
          · intro e
            have := (h.sWork j).2 e
            rw [hn] at this; cases this
      · intro j
        rw [List.getElem?_set]
        by_cases hij : i = j
        · subst hij; simp [hi]
        · rw [if_neg hij]; exact h.sIdle j
    · cases hs

/-- The thread that runs the command moves without touching the lock on the statistics. -/
theorem inv_mpc {s : St} {m : MPc} {k : List Call} {o : Option Tid} {r : RPc} {l : LPc} {a b la lb : Bool} (h : Inv s)
    (h1 : s.sOwner = some .main → m.callable = true) (h2 : m.inS = false) (h2' : s.mpc.inS = false)
    (h3 : Legal (decide (s.sOwner = some .main)) k)
    (h4 : r.holdsS = s.rpc.holdsS) (h4' : r.holdsC = s.rpc.holdsC) (h5 : l = .write ↔ s.lpc = .write)
    (h8 : o = some .main ↔ m.inC = true) (h9 : o = some .runner ↔ s.cOwner = some .runner)
    (h10 : o ≠ some .logger ∧ ∀ i, o ≠ some (.worker i))
    (h11 : phaseOk a b m r = true) (h12 : lphaseOk la lb m l = true) :
    Inv { s with mpc := m, todo := k, cOwner := o, rpc := r, lpc := l, started := a, down := b, lstarted := la, ldown := lb } := by
  refine ⟨fun e => Or.inr (h1 e), ?_, ?_, ?_, ?_, h.sWork, h.sIdle, h8, ?_, h10, h11, h12⟩
  · intro e; simp only at e; rw [h2] at e; cases e
  · simp only [h2, Bool.not_false, Bool.and_true]; exact h3
  · simp only [h4]; exact h.sRun
  · simp only [h5]; exact h.sLog
  · simp only [h4', h9]; exact h.cRun

/-- The thread that runs the command takes or gives back the lock on the statistics. -/
theorem inv_mso {s : St} {m : MPc} {k : List Call} {o : Option Tid} (h : Inv s)
    (hs : s.sOwner = none ∨ s.sOwner = some .main) (ho : o = none ∨ o = some .main)
    (h1 : o = some .main → m.inS = true ∨ m.callable = true) (h2 : m.inS = true → o = some .main)
    (h3 : Legal (decide (o = some .main) && !m.inS) k) (h8 : m.inC = s.mpc.inC)
    (h11 : phaseOk s.started s.down m s.rpc = true) (h12 : lphaseOk s.lstarted s.ldown m s.lpc = true) :
    Inv { s with mpc := m, todo := k, sOwner := o } := by
  refine ⟨h1, h2, h3, ?_, ?_, ?_, h.sIdle, ?_, h.cRun, h.cOth, h11, h12⟩
  · have := h.sRun
    rcases hs with e | e <;> rcases ho with e' | e' <;> subst e' <;> rw [e] at this <;> simpa using this
  · have := h.sLog
    rcases hs with e | e <;> rcases ho with e' | e' <;> subst e' <;> rw [e] at this <;> simpa using this
  · intro i
    have := h.sWork i
    rcases hs with e | e <;> rcases ho with e' | e' <;> subst e' <;> rw [e] at this <;> simpa using this
  · simp only [h8]; exact h.cMain

theorem ph_call {a b : Bool} {m m' : MPc} {r : RPc} (hm : m.callable = true) (hm' : m'.callable = true)
    (h : phaseOk a b m r = true) : phaseOk a b m' r = true := by
  cases m <;> first | cases hm | skip
  all_goals cases m' <;> first | exact h | cases hm'

theorem lph_call {a b : Bool} {m m' : MPc} {r : LPc} (hm : m.callable = true) (hm' : m'.callable = true)
    (h : lphaseOk a b m r = true) : lphaseOk a b m' r = true := by
  cases m <;> first | cases hm | skip
  all_goals cases m' <;> first | exact h | cases hm'

theorem not_main {s : St} (h : Inv s) (h1 : s.mpc.inS = false) (h2 : s.mpc.callable = false) : s.sOwner ≠ some .main := by
  intro e
  rcases h.sMain e with e | e
  · rw [h1] at e; cases e
  · rw [h2] at e; cases e

theorem inv_begin {s s' : St} {x : Call} {k : List Call} (h : Inv s) (hm : s.mpc = .idle) (ht : s.todo = x :: k)
    (hs : beginCall s k x = some s') : Inv s' := by
  have hph := h.phase
  have hlph := h.lphase
  have hL := h.legal
  have hC := h.cMain
  rw [hm] at hph hlph
  rw [hm] at hL hC
  simp only [MPc.inS, Bool.not_false, Bool.and_true, ht] at hL
  have hnC : s.cOwner ≠ some .main := by intro e; have := hC.1 e; cases this
  have hS : s.mpc.inS = false := by rw [hm]; rfl
  have stay : ∀ k, Legal (decide (s.sOwner = some .main)) k → Inv { s with todo := k } := by
    intro k hk
    have := inv_mpc (m := .idle) (k := k) (o := s.cOwner) (r := s.rpc) (l := s.lpc) (a := s.started) (b := s.down)
      (la := s.lstarted) (lb := s.ldown) h (fun _ => rfl) rfl hS hk rfl rfl Iff.rfl
      (by simp [hnC, MPc.inC]) Iff.rfl h.cOth hph hlph
    rw [← hm] at this
    exact this
  have go : ∀ (m : MPc) (k : List Call) (a la : Bool), Legal (decide (s.sOwner = some .main)) k →
      (s.sOwner = some .main → m.callable = true) → m.inS = false → m.inC = false →
      phaseOk a s.down m s.rpc = true → lphaseOk la s.ldown m s.lpc = true →
      Inv { s with mpc := m, todo := k, started := a, lstarted := la } := by
    intro m k a la hk h1 h2 h3 h4 h5
    exact inv_mpc (m := m) (k := k) (o := s.cOwner) (r := s.rpc) (l := s.lpc) (a := a) (b := s.down)
      (la := la) (lb := s.ldown) h h1 h2 hS hk rfl rfl Iff.rfl (by simp [hnC, h3]) Iff.rfl h.cOth h4 h5
  cases x with
  | start =>
    simp only [Legal, decide_eq_false_iff_not] at hL
    have hk : Legal (decide (s.sOwner = some .main)) k := by simpa [hL.1] using hL.2
    simp only [beginCall] at hs
    split at hs <;> cases hs
    · exact stay k hk
    · rename_i hn
      refine go .st1 k true s.lstarted hk (fun e => absurd e hL.1) rfl rfl ?_ hlph
      simp only [Bool.not_eq_true] at hn
      rw [hn] at hph
      simpa [phaseOk] using hph
  | stop =>
    simp only [Legal, decide_eq_false_iff_not] at hL
    have hk : Legal (decide (s.sOwner = some .main)) k := by simpa [hL.1] using hL.2
    simp only [beginCall] at hs
    split at hs <;> cases hs
    · rename_i hn
      simp only [Bool.and_eq_true, Bool.not_eq_true'] at hn
      refine go .sp1 k s.started s.lstarted hk (fun e => absurd e hL.1) rfl rfl ?_ hlph
      rw [hn.1, hn.2] at hph ⊢
      simpa [phaseOk] using hph
    · exact stay k hk
  | pause =>
    simp only [Legal] at hL
    simp only [beginCall] at hs
    split at hs
    · split at hs <;> cases hs
      · have := go .pa1 k s.started s.lstarted hL (fun _ => rfl) rfl rfl (ph_call rfl rfl hph) (lph_call rfl rfl hlph)
        exact inv_data this s.units s.ctx s.out s.log s.crash false
      · exact stay k hL
    · cases hs; exact stay k hL
  | resume =>
    simp only [Legal] at hL
    simp only [beginCall] at hs
    cases hs
    exact inv_data (stay k hL) s.units s.ctx s.out s.log s.crash true
  | acquire =>
    simp only [Legal] at hL
    simp only [beginCall] at hs
    split at hs
    · rename_i hn
      cases hs
      have := inv_mso (m := .idle) (k := k) (o := some .main) h (Or.inl hn) (Or.inr rfl) (fun _ => Or.inr rfl) (by simp)
        (by simpa [MPc.inS] using hL.2) (by rw [hm]) hph hlph
      rw [← hm] at this
      exact this
    · cases hs
  | add d =>
    simp only [Legal] at hL
    simp only [beginCall] at hs
    cases hs
    have hk : Legal (decide (s.sOwner = some .main)) k := by rw [hL.1]; exact hL.2
    exact inv_data (stay k hk) _ s.ctx s.out s.log s.crash s.active
  | release =>
    simp only [Legal, decide_eq_true_eq] at hL
    simp only [beginCall] at hs
    cases hs
    have := inv_mso (m := .idle) (k := k) (o := none) h (Or.inr hL.1) (Or.inl rfl) (by simp) (by simp [MPc.inS])
      (by simpa [MPc.inS] using hL.2) (by rw [hm]) hph hlph
    rw [← hm] at this
    exact this
  | join =>
    simp only [Legal, decide_eq_false_iff_not] at hL
    have hk : Legal (decide (s.sOwner = some .main)) k := by simpa [hL.1] using hL.2
    simp only [beginCall] at hs
    split at hs <;> cases hs
    exact stay k hk
  | logStart =>
    simp only [Legal, decide_eq_false_iff_not] at hL
    have hk : Legal (decide (s.sOwner = some .main)) k := by simpa [hL.1] using hL.2
    simp only [beginCall] at hs
    split at hs <;> cases hs
    · exact stay k hk
    · rename_i hn
      refine go .ls1 k s.started true hk (fun e => absurd e hL.1) rfl rfl hph ?_
      simp only [Bool.not_eq_true] at hn
      rw [hn] at hlph
      simpa [lphaseOk] using hlph
  | logStop =>
    simp only [Legal, decide_eq_false_iff_not] at hL
    have hk : Legal (decide (s.sOwner = some .main)) k := by simpa [hL.1] using hL.2
    simp only [beginCall] at hs
    split at hs <;> cases hs
    · rename_i hn
      simp only [Bool.and_eq_true, Bool.not_eq_true'] at hn
      refine go .lp1 k s.started s.lstarted hk (fun e => absurd e hL.1) rfl rfl hph ?_
      rw [hn.1, hn.2] at hlph ⊢
      simpa [lphaseOk] using hlph
    · exact stay k hk

theorem inv_main {c : Cfg} {s s' : St} (h : Inv s) (hs : stepMain c s = some s') : Inv s' := by
  have hph := h.phase
  have hlph := h.lphase
  have hL := h.legal
  cases hm : s.mpc with
  | idle =>
    cases ht : s.todo with
    | nil => simp [stepMain, hm, ht] at hs
    | cons x k =>
      simp only [stepMain, hm, ht] at hs
      exact inv_begin h hm ht hs
  | st3w => simp [stepMain, hm] at hs
  | st4w => simp [stepMain, hm] at hs
  | sp4w => simp [stepMain, hm] at hs
  | ls1w => simp [stepMain, hm] at hs
  | lp2w => simp [stepMain, hm] at hs
  | st1 =>
    rw [hm] at hph hlph hL
    have hn := not_main h (by rw [hm]; rfl) (by rw [hm]; rfl)
    simp only [hn, decide_false, Bool.false_and] at hL
    simp only [stepMain, hm] at hs
    split at hs
    · rename_i hf
      cases hs
      exact inv_mso (m := .st2) (k := s.todo) (o := some .main) h (Or.inl hf) (Or.inr rfl) (fun _ => Or.inl rfl)
        (fun _ => rfl) (by simpa [MPc.inS] using hL) (by rw [hm]; rfl) hph hlph
    · cases hs
  | sp1 =>
    rw [hm] at hph hlph hL
    have hn := not_main h (by rw [hm]; rfl) (by rw [hm]; rfl)
    simp only [hn, decide_false, Bool.false_and] at hL
    simp only [stepMain, hm] at hs
    split at hs
    · rename_i hf
      cases hs
      exact inv_mso (m := .sp2) (k := s.todo) (o := some .main) h (Or.inl hf) (Or.inr rfl) (fun _ => Or.inl rfl)
        (fun _ => rfl) (by simpa [MPc.inS] using hL) (by rw [hm]; rfl) hph hlph
    · cases hs
  | st2 =>
    rw [hm] at hph hlph hL
    have hn := h.inS (by rw [hm]; rfl)
    simp only [MPc.inS, Bool.not_true, Bool.and_false] at hL
    simp only [stepMain, hm] at hs
    cases hs
    exact inv_mso (m := .st3) (k := s.todo) (o := none) h (Or.inr hn) (Or.inl rfl) (by simp)
      (by simp [MPc.inS]) (by simpa [MPc.inS] using hL) (by rw [hm]; rfl) hph hlph
  | sp2 =>
    rw [hm] at hph hlph hL
    have hn := h.inS (by rw [hm]; rfl)
    simp only [MPc.inS, Bool.not_true, Bool.and_false] at hL
    simp only [stepMain, hm] at hs
    cases hs
    exact inv_mso (m := .sp3) (k := s.todo) (o := none) h (Or.inr hn) (Or.inl rfl) (by simp)
      (by simp [MPc.inS]) (by simpa [MPc.inS] using hL) (by rw [hm]; rfl) hph hlph
  | pa1 =>
    rw [hm] at hph hlph hL
    simp only [MPc.inS, Bool.not_false, Bool.and_true] at hL
    simp only [stepMain, hm] at hs
    split at hs
    · rename_i hf
      cases hs
      exact inv_mpc (m := .pa2) (k := s.todo) (o := some .main) h (fun _ => rfl) rfl (by rw [hm]; rfl) hL rfl rfl Iff.rfl
        (by simp [MPc.inC]) (by simp [hf]) (by simp) (ph_call rfl rfl hph) (lph_call rfl rfl hlph)
    · cases hs
  | pa3 =>
    rw [hm] at hph hlph hL
    simp only [MPc.inS, Bool.not_false, Bool.and_true] at hL
    simp only [stepMain, hm] at hs
    split at hs
    · rename_i hf
      cases hs
      exact inv_mpc (m := .pa4) (k := s.todo) (o := some .main) h (fun _ => rfl) rfl (by rw [hm]; rfl) hL rfl rfl Iff.rfl
        (by simp [MPc.inC]) (by simp [hf]) (by simp) (ph_call rfl rfl hph) (lph_call rfl rfl hlph)
    · cases hs
  | pa2 =>
    rw [hm] at hph hlph hL
    simp only [MPc.inS, Bool.not_false, Bool.and_true] at hL
    have hc := h.cMain.2 (by rw [hm]; rfl)
    simp only [stepMain, hm] at hs
    split at hs <;> cases hs
    · exact inv_mpc (m := .pa3) (k := s.todo) (o := none) h (fun _ => rfl) rfl (by rw [hm]; rfl) hL rfl rfl Iff.rfl
        (by simp [MPc.inC]) (by simp [hc]) (by simp) (ph_call rfl rfl hph) (lph_call rfl rfl hlph)
    · exact inv_mpc (m := .idle) (k := s.todo) (o := none) h (fun _ => rfl) rfl (by rw [hm]; rfl) hL rfl rfl Iff.rfl
        (by simp [MPc.inC]) (by simp [hc]) (by simp) (ph_call rfl rfl hph) (lph_call rfl rfl hlph)
  | pa4 =>
    rw [hm] at hph hlph hL
    simp only [MPc.inS, Bool.not_false, Bool.and_true] at hL
    have hc := h.cMain.2 (by rw [hm]; rfl)
    simp only [stepMain, hm] at hs
    cases hs
    have := inv_mpc (m := .idle) (k := s.todo) (o := none) h (fun _ => rfl) rfl (by rw [hm]; rfl) hL rfl rfl Iff.rfl
        (by simp [MPc.inC]) (by simp [hc]) (by simp) (ph_call rfl rfl hph) (lph_call rfl rfl hlph)
    exact inv_data this s.units s.ctx _ s.log s.crash s.active
  | st3 =>
    rw [hm] at hph hlph hL
    have hn := not_main h (by rw [hm]; rfl) (by rw [hm]; rfl)
    have hC := h.cMain
    rw [hm] at hC
    have hnC : s.cOwner ≠ some .main := by intro e; have := hC.1 e; cases this
    simp only [hn, decide_false, Bool.false_and] at hL
    simp only [stepMain, hm] at hs
    have hr : s.rpc = .r0 ∨ s.rpc = .r0w := by simpa [phaseOk] using (by simpa [phaseOk] using hph : _ ∧ _).2
    rcases hr with hr | hr <;> rw [hr] at hs hph <;> simp only [RPc.startReleased] at hs <;> cases hs
    · exact inv_mpc (m := .st3w) (k := s.todo) (o := s.cOwner) h (fun e => absurd e hn) rfl (by rw [hm]; rfl)
        (by simpa [hn] using hL) (by rw [hr]) (by rw [hr]) Iff.rfl (by simp [MPc.inC, hnC]) Iff.rfl h.cOth
        (by simpa [phaseOk] using hph) hlph
    · exact inv_mpc (m := .st4) (k := s.todo) (o := s.cOwner) h (fun e => absurd e hn) rfl (by rw [hm]; rfl)
        (by simpa [hn] using hL) (by rw [hr]; rfl) (by rw [hr]; rfl) Iff.rfl (by simp [MPc.inC, hnC]) Iff.rfl h.cOth
        (by simpa [phaseOk, RPc.inFirst] using hph) hlph
  | st4 =>
    rw [hm] at hph hlph hL
    have hn := not_main h (by rw [hm]; rfl) (by rw [hm]; rfl)
    have hC := h.cMain
    rw [hm] at hC
    have hnC : s.cOwner ≠ some .main := by intro e; have := hC.1 e; cases this
    simp only [hn, decide_false, Bool.false_and] at hL
    simp only [stepMain, hm] at hs
    cases hr : s.rpc.startReleased with
    | none =>
      simp only [hr] at hs; cases hs
      refine inv_mpc (m := .st4w) (k := s.todo) (o := s.cOwner) h (fun e => absurd e hn) rfl (by rw [hm]; rfl)
        (by simpa [hn] using hL) rfl rfl Iff.rfl (by simp [MPc.inC, hnC]) Iff.rfl h.cOth ?_ hlph
      have hne : s.rpc ≠ .r1w := by intro e; rw [e] at hr; simp [RPc.startReleased] at hr
      simpa [phaseOk, hne] using hph
    | some r =>
      simp only [hr] at hs; cases hs
      have hrr : s.rpc = .r1w := by
        revert hr hph
        cases s.rpc <;> simp [RPc.startReleased, phaseOk, RPc.inFirst]
      rw [hrr] at hr hph
      simp only [RPc.startReleased] at hr
      cases hr
      refine inv_mpc (m := .idle) (k := s.todo) (o := s.cOwner) h (fun e => absurd e hn) rfl (by rw [hm]; rfl)
        (by simpa [hn] using hL) (by rw [hrr]; rfl) (by rw [hrr]; rfl) Iff.rfl (by simp [MPc.inC, hnC]) Iff.rfl h.cOth ?_ hlph
      have : s.started = true ∧ s.down = false := by simpa [phaseOk] using hph
      simp [phaseOk, this, RPc.inLoop]
  | sp3 =>
    rw [hm] at hph hlph hL
    have hn := not_main h (by rw [hm]; rfl) (by rw [hm]; rfl)
    have hC := h.cMain
    rw [hm] at hC
    have hnC : s.cOwner ≠ some .main := by intro e; have := hC.1 e; cases this
    simp only [hn, decide_false, Bool.false_and] at hL
    simp only [stepMain, hm] at hs
    cases hs
    refine inv_mpc (m := .sp4) (k := s.todo) (o := s.cOwner) h (fun e => absurd e hn) rfl (by rw [hm]; rfl)
      (by simpa [hn] using hL) rfl rfl Iff.rfl (by simp [MPc.inC, hnC]) Iff.rfl h.cOth ?_ hlph
    have : (s.started = true ∧ s.down = false) ∧ s.rpc.inLoop = true := by simpa [phaseOk] using hph
    simp [phaseOk, this]
  | sp4 =>
    rw [hm] at hph hlph hL
    have hn := not_main h (by rw [hm]; rfl) (by rw [hm]; rfl)
    have hC := h.cMain
    rw [hm] at hC
    have hnC : s.cOwner ≠ some .main := by intro e; have := hC.1 e; cases this
    simp only [hn, decide_false, Bool.false_and] at hL
    simp only [stepMain, hm] at hs
    cases hr : s.rpc.downReleased with
    | none =>
      simp only [hr] at hs; cases hs
      refine inv_mpc (m := .sp4w) (k := s.todo) (o := s.cOwner) h (fun e => absurd e hn) rfl (by rw [hm]; rfl)
        (by simpa [hn] using hL) rfl rfl Iff.rfl (by simp [MPc.inC, hnC]) Iff.rfl h.cOth ?_ hlph
      have hne : s.rpc ≠ .r2w := by intro e; rw [e] at hr; simp [RPc.downReleased] at hr
      simpa [phaseOk, hne] using hph
    | some r =>
      simp only [hr] at hs; cases hs
      have hrr : s.rpc = .r2w := by
        revert hr
        cases s.rpc <;> simp [RPc.downReleased]
      rw [hrr] at hr hph
      simp only [RPc.downReleased] at hr
      cases hr
      refine inv_mpc (m := .idle) (k := s.todo) (o := s.cOwner) h (fun e => absurd e hn) rfl (by rw [hm]; rfl)
        (by simpa [hn] using hL) (by rw [hrr]; rfl) (by rw [hrr]; rfl) Iff.rfl (by simp [MPc.inC, hnC]) Iff.rfl h.cOth ?_ hlph
      have : s.started = true ∧ s.down = true := by simpa [phaseOk] using hph
      simp [phaseOk, this]
  | ls1 =>
    rw [hm] at hph hlph hL
    have hn := not_main h (by rw [hm]; rfl) (by rw [hm]; rfl)
    have hC := h.cMain
    rw [hm] at hC
    have hnC : s.cOwner ≠ some .main := by intro e; have := hC.1 e; cases this
    simp only [hn, decide_false, Bool.false_and] at hL
    simp only [stepMain, hm] at hs
    have hr : (s.lstarted = true ∧ s.ldown = false) ∧ (s.lpc = .l0 ∨ s.lpc = .l0w) := by simpa [lphaseOk] using hlph
    obtain ⟨hf, hr⟩ := hr
    rcases hr with hr | hr <;> rw [hr] at hs hlph <;> simp only [LPc.startReleased] at hs <;> cases hs
    · exact inv_mpc (m := .ls1w) (k := s.todo) (o := s.cOwner) h (fun e => absurd e hn) rfl (by rw [hm]; rfl)
        (by simpa [hn] using hL) rfl rfl (by rw [hr]) (by simp [MPc.inC, hnC]) Iff.rfl h.cOth hph
        (by simpa [lphaseOk] using hlph)
    · exact inv_mpc (m := .idle) (k := s.todo) (o := s.cOwner) h (fun e => absurd e hn) rfl (by rw [hm]; rfl)
        (by simpa [hn] using hL) rfl rfl (by simp [hr]) (by simp [MPc.inC, hnC]) Iff.rfl h.cOth hph
        (by simp [lphaseOk, hf, LPc.inLoop])
  | lp1 =>
    rw [hm] at hph hlph hL
    have hn := not_main h (by rw [hm]; rfl) (by rw [hm]; rfl)
    have hC := h.cMain
    rw [hm] at hC
    have hnC : s.cOwner ≠ some .main := by intro e; have := hC.1 e; cases this
    simp only [hn, decide_false, Bool.false_and] at hL
    simp only [stepMain, hm] at hs
    cases hs
    refine inv_mpc (m := .lp2) (k := s.todo) (o := s.cOwner) h (fun e => absurd e hn) rfl (by rw [hm]; rfl)
      (by simpa [hn] using hL) rfl rfl Iff.rfl (by simp [MPc.inC, hnC]) Iff.rfl h.cOth hph ?_
    have : (s.lstarted = true ∧ s.ldown = false) ∧ s.lpc.inLoop = true := by simpa [lphaseOk] using hlph
    simp [lphaseOk, this]
  | lp2 =>
    rw [hm] at hph hlph hL
    have hn := not_main h (by rw [hm]; rfl) (by rw [hm]; rfl)
    have hC := h.cMain
    rw [hm] at hC
    have hnC : s.cOwner ≠ some .main := by intro e; have := hC.1 e; cases this
    simp only [hn, decide_false, Bool.false_and] at hL
    simp only [stepMain, hm] at hs
    cases hr : s.lpc.downReleased with
    | none =>
      simp only [hr] at hs; cases hs
      refine inv_mpc (m := .lp2w) (k := s.todo) (o := s.cOwner) h (fun e => absurd e hn) rfl (by rw [hm]; rfl)
        (by simpa [hn] using hL) rfl rfl Iff.rfl (by simp [MPc.inC, hnC]) Iff.rfl h.cOth hph ?_
      have hne : s.lpc ≠ .l1w := by intro e; rw [e] at hr; simp [LPc.downReleased] at hr
      simpa [lphaseOk, hne] using hlph
    | some r =>
      simp only [hr] at hs; cases hs
      have hrr : s.lpc = .l1w := by
        revert hr
        cases s.lpc <;> simp [LPc.downReleased]
      rw [hrr] at hr hlph
      simp only [LPc.downReleased] at hr
      cases hr
      refine inv_mpc (m := .idle) (k := s.todo) (o := s.cOwner) h (fun e => absurd e hn) rfl (by rw [hm]; rfl)
        (by simpa [hn] using hL) rfl rfl (by simp [hrr]) (by simp [MPc.inC, hnC]) Iff.rfl h.cOth hph ?_
      have : s.lstarted = true ∧ s.ldown = true := by simpa [lphaseOk] using hlph
      simp [lphaseOk, this]

theorem inv_step {c : Cfg} {s s' : St} {t : Tid} (h : Inv s) (hs : step c s t = some s') : Inv s' := by
  cases t with
  | main => exact inv_main h hs
  | runner => exact inv_runner h hs
  | logger => exact inv_logger h hs
  | worker i => exact inv_worker h hs

/-- What every step keeps, every run keeps. -/
theorem run_keeps {c : Cfg} {P : St → Prop} (hP : ∀ s s' t, P s → step c s t = some s' → P s') :
    ∀ (ts : List Tid) (s : St), P s → P (run c s ts)
  | [], _, h => h
  | t :: ts, s, h => by
    rw [run]
    split
    · rename_i s' e; exact run_keeps hP ts s' (hP s s' t h e)
    · exact run_keeps hP ts s h

theorem inv_run {c : Cfg} {s : St} (ts : List Tid) (h : Inv s) : Inv (run c s ts) :=
  run_keeps (fun _ _ _ h hs => inv_step h hs) ts s h

theorem run_append (c : Cfg) : ∀ (s : St) (a b : List Tid), run c s (a ++ b) = run c (run c s a) b
  | _, [], _ => rfl
  | s, t :: a, b => by
    rw [List.cons_append, run, run]
    split
    · exact run_append c _ a b
    · exact run_append c _ a b

end Verif.Progress
