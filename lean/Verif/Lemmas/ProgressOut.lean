import Verif.Lemmas.Progress
import Mathlib.Algebra.BigOperators.Group.List.Basic
/-!
# Lemmas: what is printed
-/

namespace Verif.Progress

/-- What is still to be added to the counters. -/
def St.left (s : St) : Nat := (s.todo.map Call.amount).sum + (s.ws.map fun w => w.rounds.sum).sum

theorem sum_set_eq {f : Worker → Nat} : ∀ {ws : List Worker} {i : Nat} {w w' : Worker} {d : Nat}, ws[i]? = some w →
    f w' + d = f w → ((ws.set i w').map f).sum + d = (ws.map f).sum
  | [], _, _, _, _, h, _ => by simp at h
  | a :: ws, 0, w, w', d, h, hf => by
    simp only [List.getElem?_cons_zero, Option.some.injEq] at h
    subst h
    simp only [List.set, List.map_cons, List.sum_cons]; omega
  | a :: ws, i + 1, w, w', d, h, hf => by
    simp only [List.getElem?_cons_succ] at h
    have := sum_set_eq h hf
    simp only [List.set, List.map_cons, List.sum_cons]; omega

theorem cons_main {c : Cfg} {s s' : St} (hs : stepMain c s = some s') : s'.units + s'.left = s.units + s.left := by
  obtain ⟨mpc, todo, rpc, lpc, ws, so, co, started, down, active, ls, ld, units, ctx, out, log, crash⟩ := s
  cases mpc
  case idle =>
    cases todo with
    | nil => simp [stepMain] at hs
    | cons x k =>
      cases x <;> simp only [stepMain, beginCall] at hs <;> (repeat' split at hs) <;> cases hs <;>
        simp only [St.left, Call.amount, List.map_cons, List.sum_cons] <;> omega
  all_goals
    simp only [stepMain] at hs
    (repeat' split at hs) <;> first
      | contradiction
      | (cases hs; rfl)

theorem cons_runner {c : Cfg} {s s' : St} (hs : stepRunner c s = some s') : s'.units + s'.left = s.units + s.left := by
  obtain ⟨mpc, todo, rpc, lpc, ws, so, co, started, down, active, ls, ld, units, ctx, out, log, crash⟩ := s
  cases rpc
  case p w k =>
    cases k <;> simp only [stepRunner] at hs <;> (repeat' split at hs) <;> first
      | contradiction
      | (cases hs; rfl)
  all_goals
    simp only [stepRunner] at hs
    (repeat' split at hs) <;> first
      | contradiction
      | (cases hs; rfl)

theorem cons_logger {s s' : St} (hs : stepLogger s = some s') : s'.units + s'.left = s.units + s.left := by
  simp only [stepLogger] at hs
  (repeat' split at hs) <;> first
    | contradiction
    | (cases hs; rfl)

theorem cons_worker {s s' : St} {i : Nat} (hs : stepWorker i s = some s') : s'.units + s'.left = s.units + s.left := by
  simp only [stepWorker] at hs
  split at hs
  · cases hs
  · cases hs
  · rename_i d r hw
    cases hs
    have := sum_set_eq (f := fun w => w.rounds.sum) (w' := ⟨r, false⟩) (d := d) hw (by simp; omega)
    simp only [St.left]; omega
  · rename_i d r hw
    split at hs
    · cases hs
      have := sum_set_eq (f := fun w => w.rounds.sum) (w' := ⟨d :: r, true⟩) (d := 0) hw (by simp)
      simp only [St.left]; omega
    · cases hs

theorem cons_step {c : Cfg} {s s' : St} {t : Tid} (hs : step c s t = some s') :
    s'.units + s'.left = s.units + s.left := by
  cases t with
  | main => exact cons_main hs
  | runner => exact cons_runner hs
  | logger => exact cons_logger hs
  | worker i => exact cons_worker hs

/-- The last report has been made. -/
def RPc.reported : RPc → Bool
  | .p .final .relC | .p .final .relS | .r2 | .r2w | .done => true
  | _ => false

/-- The first report has not been made. -/
def RPc.fresh : RPc → Bool
  | .r0 | .r0w | .p .first .acqS | .p .first .acqC | .p .first .emit => true
  | _ => false

def MPc.pausing : MPc → Bool
  | .pa1 | .pa2 | .pa3 | .pa4 => true
  | _ => false

def MPc.erasing : MPc → Bool
  | .pa3 | .pa4 => true
  | _ => false

/-- Steps which print nothing. -/
theorem quiet {c : Cfg} {s s' : St} {t : Tid} (hs : step c s t = some s') (h1 : ¬ (t = .main ∧ s.mpc = .pa4))
    (h2 : ¬ (t = .runner ∧ ∃ w, s.rpc = .p w .emit)) :
    s'.out = s.out ∧ s'.ctx = s.ctx ∧ s'.crash = s.crash ∧ s.units ≤ s'.units ∧ s'.rpc.reported = s.rpc.reported
      ∧ s'.rpc.fresh = s.rpc.fresh := by
  obtain ⟨mpc, todo, rpc, lpc, ws, so, co, started, down, active, ls, ld, units, ctx, out, log, crash⟩ := s
  cases t with
  | main =>
    simp only [step] at hs
    cases mpc
    case idle =>
      cases todo with
      | nil => simp [stepMain] at hs
      | cons x k =>
        cases x <;> simp only [stepMain, beginCall] at hs <;> (repeat' split at hs) <;> cases hs <;> simp
    case st3 =>
      simp only [stepMain] at hs
      cases rpc <;> simp only [RPc.startReleased] at hs <;> cases hs <;> simp [RPc.reported, RPc.fresh]
    case st4 =>
      simp only [stepMain] at hs
      cases rpc <;> simp only [RPc.startReleased] at hs <;> cases hs <;> simp [RPc.reported, RPc.fresh]
    case sp4 =>
      simp only [stepMain] at hs
      cases rpc <;> simp only [RPc.downReleased] at hs <;> cases hs <;> simp [RPc.reported, RPc.fresh]
    case pa4 => exact absurd ⟨rfl, rfl⟩ h1
    all_goals
      simp only [stepMain] at hs
      (repeat' split at hs) <;> first
        | contradiction
        | (cases hs; simp; done)
  | runner =>
    simp only [step] at hs
    cases rpc
    case p w k =>
      cases k
      case emit => exact absurd ⟨rfl, w, rfl⟩ h2
      all_goals
        simp only [stepRunner] at hs
        (repeat' split at hs) <;> first
          | contradiction
          | (cases hs; cases w <;> simp [RPc.reported, RPc.fresh, afterPrint])
    all_goals
      simp only [stepRunner] at hs
      (repeat' split at hs) <;> first
        | contradiction
        | (cases hs; simp [RPc.reported, RPc.fresh]; done)
  | logger =>
    simp only [step, stepLogger] at hs
    (repeat' split at hs) <;> first
      | contradiction
      | (cases hs; simp)
  | worker i =>
    simp only [step, stepWorker] at hs
    (repeat' split at hs) <;> first
      | contradiction
      | (cases hs; simp)

/-- `pause` is at work only while the reporter runs, and erases only if it should. -/
structure Inv1 (c : Cfg) (s : St) : Prop where
  pausing : s.mpc.pausing = true → s.down = false ∧ s.started = true
  erasing : s.mpc.erasing = true → c.level ≠ .L0 ∧ c.json = false

theorem inv1_step {c : Cfg} {s s' : St} {t : Tid} (h : Inv1 c s) (hs : step c s t = some s') : Inv1 c s' := by
  obtain ⟨mpc, todo, rpc, lpc, ws, so, co, started, down, active, ls, ld, units, ctx, out, log, crash⟩ := s
  obtain ⟨h1, h2⟩ := h
  simp only at h1 h2
  cases t with
  | main =>
    simp only [step] at hs
    cases mpc
    case idle =>
      cases todo with
      | nil => simp [stepMain] at hs
      | cons x k =>
        cases x <;> simp only [stepMain, beginCall] at hs <;> (repeat' split at hs) <;> cases hs <;>
          constructor <;> simp_all [MPc.pausing, MPc.erasing]
    case pa2 =>
      simp only [stepMain] at hs
      split at hs
      · rename_i hv
        cases hs
        refine ⟨fun _ => h1 rfl, fun _ => ?_⟩
        cases hl : c.level <;> rw [hl] at hv <;> simp [Level.whileActive, Level.whenDone] at hv ⊢ <;> exact hv
      · cases hs
        exact ⟨by simp [MPc.pausing], by simp [MPc.erasing]⟩
    all_goals
      simp only [stepMain] at hs
      (repeat' split at hs) <;> first
        | contradiction
        | (cases hs; constructor <;> simp_all [MPc.pausing, MPc.erasing]; done)
  | runner =>
    have key : ∀ m : MPc, m.startReleased = some m → False := by intro m; cases m <;> simp [MPc.startReleased]
    simp only [step] at hs
    cases rpc
    case r0 =>
      simp only [stepRunner] at hs
      cases mpc <;> simp only [MPc.startReleased] at hs <;> cases hs <;> constructor <;> simp_all [MPc.pausing, MPc.erasing]
    case r1 =>
      simp only [stepRunner] at hs
      cases mpc <;> simp only [MPc.startReleased] at hs <;> cases hs <;> constructor <;> simp_all [MPc.pausing, MPc.erasing]
    case r2 =>
      simp only [stepRunner] at hs
      cases mpc <;> simp only [MPc.downReleased] at hs <;> cases hs <;> constructor <;> simp_all [MPc.pausing, MPc.erasing]
    case p w k =>
      cases k <;> simp only [stepRunner] at hs <;> (repeat' split at hs) <;> first
        | contradiction
        | (cases hs; exact ⟨h1, h2⟩)
    all_goals
      simp only [stepRunner] at hs
      (repeat' split at hs) <;> first
        | contradiction
        | (cases hs; exact ⟨h1, h2⟩)
  | logger =>
    simp only [step] at hs
    cases lpc
    case l0 =>
      simp only [stepLogger] at hs
      cases mpc <;> simp only [MPc.logStartReleased] at hs <;> cases hs <;> constructor <;>
        simp_all [MPc.pausing, MPc.erasing]
    case l1 =>
      simp only [stepLogger] at hs
      cases mpc <;> simp only [MPc.logDownReleased] at hs <;> cases hs <;> constructor <;>
        simp_all [MPc.pausing, MPc.erasing]
    all_goals
      simp only [stepLogger] at hs
      (repeat' split at hs) <;> first
        | contradiction
        | (cases hs; exact ⟨h1, h2⟩)
  | worker i =>
    simp only [step, stepWorker] at hs
    (repeat' split at hs) <;> first
      | contradiction
      | (cases hs; exact ⟨h1, h2⟩)

theorem inv1_init {c : Cfg} (prog : List Call) (pl : List (List Nat)) (u : Nat) : Inv1 c (init prog pl u) :=
  ⟨by simp [init, MPc.pausing], by simp [init, MPc.erasing]⟩

/-- The percentage as it should be. -/
def percentOf (total n : Nat) : Nat := if total = 0 then 100 else min (100 * n / total) 100

theorem makeNumbers_eq {total : Option Nat} {last units : Nat} (h : last ≤ units) (h' : 100 * units < 2 ^ 64) :
    makeNumbers total last units = some (units - last, total.map fun t => percentOf t units) := by
  rw [makeNumbers.eq_def, if_neg (by omega)]
  cases total with
  | none => rfl
  | some t =>
    simp only [calcPercent, percentOf, Option.map_some]
    by_cases ht : t = 0
    · simp [ht]
    · simp only [if_neg ht, if_pos h']

/-- What `print_progress` does when nothing is out of range and the last line has not been printed. -/
theorem printProgress_eq {c : Cfg} {x : Ctx} {units : Nat} {fin : Bool} (h : x.last ≤ units) (h' : 100 * units < 2 ^ 64)
    (hx : x.finish = false) :
    printProgress c x units fin =
      if (c.level.whileActive && !fin) || (c.level.whenDone && fin) then
        some (⟨x.header || !c.json, fin, units⟩,
          if c.json then [.object units c.total]
          else (if x.header then [] else [.header])
            ++ [if fin then .finish units else .line units (units - x.last) (c.total.map fun t => percentOf t units)])
      else some (x, []) := by
  rw [printProgress, hx, makeNumbers_eq h h']
  simp only [Bool.not_false, Bool.and_true]

structure Inv2 (c : Cfg) (T : Nat) (s : St) : Prop where
  cons : s.units + s.left = T
  last : s.ctx.last ≤ s.units
  crash : s.crash = false
  mono : (s.out.filterMap Event.shown).Pairwise (· ≤ ·)
  bound : ∀ n ∈ s.out.filterMap Event.shown, n ≤ s.ctx.last
  l0 : c.level = .L0 → s.out = []
  fin : s.ctx.finish = true ↔ s.rpc.reported = true ∧ c.level ≠ .L0
  hdr : c.level = .L2 → s.rpc.fresh = false → visible s.out ≠ []
  json : c.json = true → ∀ e ∈ s.out, ∃ n, e = .object n c.total
  plain : c.json = false → (s.ctx.header = false → visible s.out = [])
    ∧ (s.ctx.header = true → ∃ lines fin, visible s.out = .header :: (lines ++ fin)
        ∧ (∀ e ∈ lines, c.level = .L2 ∧ e.isLine = true) ∧ fin = if s.ctx.finish then [.finish s.ctx.last] else [])
  ends : s.ctx.finish = true → ∃ pre, s.out = pre ++ [if c.json then .object s.ctx.last c.total else .finish s.ctx.last]
  lines : ∀ n d p, Event.line n d p ∈ s.out → p = c.total.map fun t => percentOf t n

theorem inv2_init {c : Cfg} (prog : List Call) (pl : List (List Nat)) (u : Nat) :
    Inv2 c (u + amountOf prog pl) (init prog pl u) := by
  refine ⟨?_, by simp [init], rfl, by simp [init], by simp [init], fun _ => rfl, by simp [init, RPc.reported],
    by simp [init, RPc.fresh], by simp [init], ?_, by simp [init], by simp [init]⟩
  · simp [St.left, init, amountOf, Call.amount, List.map_map, Function.comp_def]
  · intro _
    exact ⟨fun _ => rfl, by simp [init]⟩

theorem visible_append (a b : List Event) : visible (a ++ b) = visible a ++ visible b := List.filter_append ..

theorem inv2_quiet {c : Cfg} {T : Nat} {s s' : St} (h : Inv2 c T s) (hc : s'.units + s'.left = s.units + s.left)
    (hq : s'.out = s.out ∧ s'.ctx = s.ctx ∧ s'.crash = s.crash ∧ s.units ≤ s'.units ∧ s'.rpc.reported = s.rpc.reported
      ∧ s'.rpc.fresh = s.rpc.fresh) : Inv2 c T s' := by
  obtain ⟨e1, e2, e3, e4, e5, e6⟩ := hq
  refine ⟨by rw [hc]; exact h.cons, ?_, by rw [e3]; exact h.crash, by rw [e1]; exact h.mono, by rw [e1, e2]; exact h.bound,
    by rw [e1]; exact h.l0, by rw [e2, e5]; exact h.fin, by rw [e1, e6]; exact h.hdr, by rw [e1]; exact h.json,
    by rw [e1, e2]; exact h.plain, by rw [e1, e2]; exact h.ends, by rw [e1]; exact h.lines⟩
  have := h.last
  rw [e2]; omega

theorem inv2_erase {c : Cfg} {T : Nat} {s s' : St} (h : Inv2 c T s) (hi : Inv s) (h1 : Inv1 c s) (hm : s.mpc = .pa4)
    (hs : stepMain c s = some s') : Inv2 c T s' := by
  simp only [stepMain, hm] at hs
  cases hs
  have hd := h1.pausing (by rw [hm]; rfl)
  have he := h1.erasing (by rw [hm]; rfl)
  have hph := hi.phase
  rw [hm] at hph
  have hrep : s.rpc.reported = false := by
    have : s.rpc.inLoop = true := by simpa [phaseOk, hd] using hph
    revert this
    cases s.rpc with
    | p w k => cases w <;> cases k <;> simp [RPc.inLoop, RPc.reported]
    | _ => simp [RPc.inLoop, RPc.reported]
  have hf : s.ctx.finish = false := by
    cases e : s.ctx.finish with
    | false => rfl
    | true => have := (h.fin.1 e).1; rw [hrep] at this; cases this
  have hv : visible (s.out ++ [Event.erase]) = visible s.out := by simp [visible]
  refine ⟨h.cons, h.last, h.crash, by simpa [Event.shown, List.filterMap_cons] using h.mono, by simpa [Event.shown, List.filterMap_cons] using h.bound,
    fun e => absurd e he.1, h.fin, fun e e' => by simp only [hv]; exact h.hdr e e', fun e => absurd e (by simp [he.2]),
    by simp only [hv]; exact h.plain, fun e => absurd e (by simp [hf]), ?_⟩
  intro n d p hmem
  exact h.lines n d p (by simpa using hmem)

theorem inv2_emit {c : Cfg} {T : Nat} {s s' : St} {w : Where} (h : Inv2 c T s) (hT : 100 * T < 2 ^ 64)
    (hr : s.rpc = .p w .emit) (hs : stepRunner c s = some s') : Inv2 c T s' := by
  have hcons := cons_runner hs
  have hu : 100 * s.units < 2 ^ 64 := by have := h.cons; omega
  have hf : s.ctx.finish = false := by
    cases e : s.ctx.finish with
    | false => rfl
    | true => have := (h.fin.1 e).1; rw [hr] at this; cases w <;> cases this
  simp only [stepRunner, hr, printProgress_eq h.last hu hf] at hs
  have hlast := h.last
  by_cases hp : ((c.level.whileActive && !(w == .final)) || (c.level.whenDone && (w == .final))) = true
  · rw [if_pos hp] at hs
    simp only [Option.some.injEq] at hs
    subst hs
    have hl0 : c.level ≠ .L0 := by
      intro e; rw [e] at hp; simp [Level.whileActive, Level.whenDone] at hp
    have hplain := h.plain
    refine ⟨by have := h.cons; simp only [St.left] at this hcons ⊢; omega, Nat.le_refl _, h.crash, ?_, ?_, fun e => absurd e hl0,
      ?_, ?_, ?_, ?_, ?_, ?_⟩
    · simp only [List.filterMap_append, List.pairwise_append]
      refine ⟨h.mono, ?_, ?_⟩
      · cases c.json <;> cases s.ctx.header <;> cases (w == Where.final) <;> simp [Event.shown, List.filterMap_cons]
      · intro a ha b hb
        have := h.bound a ha
        have hb' : b = s.units := by
          revert hb
          cases c.json <;> cases s.ctx.header <;> cases (w == Where.final) <;> simp [Event.shown, List.filterMap_cons]
        omega
    · intro n hn
      simp only [List.filterMap_append, List.mem_append] at hn
      rcases hn with hn | hn
      · have := h.bound n hn; simp only; omega
      · have hb' : n = s.units := by
          revert hn
          cases c.json <;> cases s.ctx.header <;> cases (w == Where.final) <;> simp [Event.shown, List.filterMap_cons]
        simp only; omega
    · cases w <;> simp [RPc.reported, hl0]
    · intro _ _
      rw [visible_append]
      intro hn
      have := (List.append_eq_nil_iff.1 hn).2
      revert this
      cases c.json <;> cases s.ctx.header <;> cases (w == Where.final) <;> simp [visible]
    · intro hj e he
      simp only [hj, if_true, List.mem_append, List.mem_singleton] at he
      rcases he with he | he
      · exact h.json hj e he
      · exact ⟨_, he⟩
    · intro hj
      simp only [hj, Bool.not_false, Bool.or_true, Bool.false_eq_true, if_false]
      refine ⟨by simp, fun _ => ?_⟩
      obtain ⟨p1, p2⟩ := hplain hj
      rw [visible_append]
      have hlev : (w == Where.final) = false → c.level = .L2 := by
        intro e; rw [e] at hp
        cases hl : c.level <;> rw [hl] at hp <;> simp [Level.whileActive] at hp ⊢
      cases hh : s.ctx.header with
      | false =>
        rw [p1 hh]
        cases hw : (w == Where.final) with
        | true => exact ⟨[], [.finish s.units], by simp [visible], by simp, by simp⟩
        | false => exact ⟨[.line s.units (s.units - s.ctx.last) (c.total.map fun t => percentOf t s.units)], [],
            by simp [visible], by simp [Event.isLine, hlev hw], by simp⟩
      | true =>
        obtain ⟨lines, fin, hv, hl, hfin⟩ := p2 hh
        rw [hf] at hfin
        simp only [Bool.false_eq_true, if_false] at hfin
        subst hfin
        rw [hv]
        cases hw : (w == Where.final) with
        | true => exact ⟨lines, [.finish s.units], by simp [visible], hl, by simp⟩
        | false =>
          refine ⟨lines ++ [.line s.units (s.units - s.ctx.last) (c.total.map fun t => percentOf t s.units)], [],
            by simp [visible], ?_, by simp⟩
          intro e he
          rcases List.mem_append.1 he with he | he
          · exact hl e he
          · rw [List.mem_singleton] at he; subst he; exact ⟨hlev hw, rfl⟩
    · intro hw
      simp only at hw
      simp only [hw, if_true]
      cases c.json with
      | true => exact ⟨s.out, by simp⟩
      | false => exact ⟨s.out ++ (if s.ctx.header then [] else [.header]), by simp⟩
    · intro n d p hmem
      rcases List.mem_append.1 hmem with hmem | hmem
      · exact h.lines n d p hmem
      · revert hmem
        cases c.json <;> cases s.ctx.header <;> cases (w == Where.final) <;> simp <;> (rintro rfl _ rfl; rfl)
  · rw [if_neg hp] at hs
    simp only [Option.some.injEq, List.append_nil] at hs
    subst hs
    simp only [Bool.not_eq_true] at hp
    have hL : c.level = .L2 → False := by
      intro e; rw [e] at hp; cases w <;> simp [Level.whileActive, Level.whenDone] at hp
    refine ⟨by have := h.cons; simp only [St.left] at this hcons ⊢; omega, h.last, h.crash, h.mono, h.bound, h.l0, ?_, fun e => (hL e).elim, h.json,
      h.plain, h.ends, h.lines⟩
    simp only [hf, Bool.false_eq_true, false_iff]
    rintro ⟨e, e'⟩
    cases w <;> first | cases e | skip
    cases hl : c.level <;> rw [hl] at hp <;> simp [Level.whileActive, Level.whenDone] at hp
    exact e' hl

theorem inv2_step {c : Cfg} {T : Nat} {s s' : St} {t : Tid} (hT : 100 * T < 2 ^ 64) (h : Inv2 c T s) (hi : Inv s)
    (h1 : Inv1 c s) (hs : step c s t = some s') : Inv2 c T s' := by
  by_cases ha : t = .main ∧ s.mpc = .pa4
  · obtain ⟨rfl, hm⟩ := ha
    exact inv2_erase h hi h1 hm hs
  · by_cases hb : t = .runner ∧ ∃ w, s.rpc = .p w .emit
    · obtain ⟨rfl, w, hr⟩ := hb
      exact inv2_emit h hT hr hs
    · exact inv2_quiet h (cons_step hs) (quiet hs ha hb)

/-- Everything at once. -/
theorem all_run {c : Cfg} {prog : List Call} {pl : List (List Nat)} {u : Nat} (h : Legal false prog)
    (hT : 100 * (u + amountOf prog pl) < 2 ^ 64) (ts : List Tid) :
    Inv (run c (init prog pl u) ts) ∧ Inv1 c (run c (init prog pl u) ts)
      ∧ Inv2 c (u + amountOf prog pl) (run c (init prog pl u) ts) :=
  run_keeps (P := fun s => Inv s ∧ Inv1 c s ∧ Inv2 c (u + amountOf prog pl) s)
    (fun _ _ _ h hs => ⟨inv_step h.1 hs, inv1_step h.2.1 hs, inv2_step hT h.2.2 h.1 h.2.1 hs⟩) ts _
    ⟨inv_init h pl u, inv1_init prog pl u, inv2_init prog pl u⟩

end Verif.Progress
